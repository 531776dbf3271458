import Verif.Model.Export
import Verif.Spec.Export
import Verif.Lemmas.CompLine
import Verif.Lemmas.CompRead
import Verif.Props.LogRead
import Verif.Props.CompLine
import Mathlib.Tactic.ByContra
import Mathlib.Data.List.Nodup
import Mathlib.Data.List.GetD

/-! C48 and C64 at the level of characters. -/
namespace Props.Export
open Model.Regex Model.Export Lemmas.Regex Lemmas.CompLine
open Model.CompLine (lit WordClass words)
open Model.PyStr (isSpace)
open Model.LogRead (XLine OLine ELine reformat reformatLoop readExport splitOn)
open Spec.Export hiding Str

theorem go_lits (a : Str) (r : Re) (k : St → Option St) : ∀ (s : St) (rest : Str), s.rest = a ++ rest → go (lits a r) k s = go r k (adv s a rest) := by
  induction a with
  | nil => intro s rest h; simp only [lits]; rw [← show s.rest = rest by simpa using h, adv_nil]
  | cons c a ih =>
    intro s rest h
    simp only [lits]
    rw [go_seq]
    unfold lit
    rw [go_cls _ _ _ c (a ++ rest) h (by simp), ih _ rest rfl, Lemmas.Regex.adv_adv]
    rfl

theorem lits_none (a : Str) (r : Re) (k : St → Option St) : ∀ (s : St), ¬ a <+: s.rest → go (lits a r) k s = none := by
  induction a with
  | nil => intro s h; simp at h
  | cons c a ih =>
    intro s h
    simp only [lits]
    rw [go_seq]
    unfold lit
    cases hs : s.rest with
    | nil => exact go_cls_none _ _ _ (by simp [hs])
    | cons d r' =>
      by_cases hd : d = c
      · subst hd
        rw [go_cls _ _ _ d r' hs (by simp)]
        apply ih
        intro hp
        apply h
        rw [hs]
        exact List.cons_prefix_cons.2 ⟨rfl, hp⟩
      · exact go_cls_none _ _ _ (by simp [hs, hd])

variable {w : WordClass}

theorem open_not_class (w : WordClass) : stepClass w '(' = false := by
  have : w.word '(' = false := by
    cases h : w.word '(' with
    | false => rfl
    | true => exact absurd (w.not '(' h).2 (by decide)
  simp [stepClass, this]

/-- The parameters of a header up to the last blank. -/
theorem params_split (h : Head) (ok : h.Ok w.word) : ∃ g : Str, g ≠ [] ∧ h.params.flatMap paramText = g ++ [' '] := by
  rcases List.eq_nil_or_concat h.params with e | ⟨l, p, e⟩
  · exact absurd e ok.some
  · have hb := ok.blanks p (by simp [e])
    obtain ⟨n, hn⟩ : ∃ n, p.2.2 = n + 1 := ⟨p.2.2 - 1, by omega⟩
    refine ⟨l.flatMap paramText ++ (p.1 ++ '=' :: (p.2.1 ++ List.replicate n ' ')), by simp, ?_⟩
    simp [e, paramText, hn, List.replicate_succ']

theorem params_class (h : Head) (ok : h.Ok w.word) : ∀ c ∈ h.params.flatMap paramText, stepClass w c = true := by
  intro c hc
  simp only [List.mem_flatMap, paramText, List.mem_append, List.mem_cons, List.mem_replicate] at hc
  obtain ⟨p, hp, hc⟩ := hc
  rcases hc with hc | hc | hc | ⟨_, hc⟩
  · rcases ok.chars p hp c (.inl hc) with h | h | h <;> simp [stepClass, h]
  · simp [stepClass, hc]
  · rcases ok.chars p hp c (.inr hc) with h | h | h <;> simp [stepClass, h]
  · simp [stepClass, hc]

/-- The end of a header. -/
theorem go_stepEnd (run total rest : Str) (h1 : ∀ c ∈ run, c.isDigit = true) (h2 : ∀ c ∈ total, c.isDigit = true) (s : St)
    (hs : s.rest = ": ".toList ++ run ++ '/' :: (total ++ (")\n".toList ++ rest))) :
    ∃ x : St, go stepEnd some s = some x ∧ x.caps = (.number, s.pos + 2, run) :: s.caps := by
  unfold stepEnd digits
  refine ⟨?x, ?_, ?_⟩
  rotate_left
  · rw [go_lits _ _ _ s (run ++ '/' :: (total ++ (")\n".toList ++ rest))) (by rw [hs]; simp), go_seq, go_grp]
    refine go_star _ _ _ run ('/' :: (total ++ (")\n".toList ++ rest))) rfl h1 (by intro c hc; simp at hc; subst hc; decide) _ ?_
    rw [go_seq]
    unfold lit
    rw [go_cls _ _ _ '/' (total ++ (")\n".toList ++ rest)) rfl (by decide), go_seq]
    refine go_star _ _ _ total (")\n".toList ++ rest) rfl h2 (by intro c hc; simp at hc; subst hc; decide) _ ?_
    rw [go_lits _ _ _ _ ("\n".toList ++ rest) rfl, go_cls _ _ _ '\n' rest rfl (by decide)]
  · simp [adv, St.close]

theorem go_word_run (k : St → Option St) (s : St) (rest : Str) (hs : s.rest = "Run".toList ++ rest) :
    go (.alt (lits "Run".toList .nil) (lits "Step".toList .nil)) k s = k (adv s "Run".toList rest) := by
  rw [show ∀ (a b : Re) (t : St), go (.alt a b) k t = (go a k t).or (go b k t) from fun _ _ _ => rfl]
  rw [go_lits _ _ _ s rest hs, lits_none "Step".toList]
  · simp [go]
  · rw [hs]; intro h; simp at h

theorem go_word_step (k : St → Option St) (s : St) (rest : Str) (hs : s.rest = "Step".toList ++ rest) :
    go (.alt (lits "Run".toList .nil) (lits "Step".toList .nil)) k s = k (adv s "Step".toList rest) := by
  rw [show ∀ (a b : Re) (t : St), go (.alt a b) k t = (go a k t).or (go b k t) from fun _ _ _ => rfl]
  rw [lits_none "Run".toList, Option.none_or, go_lits _ _ _ s rest hs]
  · rfl
  · rw [hs]; intro h; simp at h

/-- The common part of both expressions, with whatever recognises the word. -/
theorem go_head (wordRe : Re) (h : Head) (ok : h.Ok w.word)
    (hword : ∀ (k : St → Option St) (s : St) (rest : Str), s.rest = h.word ++ rest → go wordRe k s = k (adv s h.word rest)) :
    ∃ (g : Str) (x : St), h.params.flatMap paramText = g ++ [' '] ∧
      exec (lits "Step Information: ".toList (.seq (.grp .params (plus (.cls (stepClass w)))) (.seq (plus (lit ' ')) (.seq (lit '(') (.seq wordRe stepEnd))))) h.text = some x ∧
      group x .params = g ∧ group x .number = h.run := by
  obtain ⟨g, hg, e⟩ := params_split h ok
  obtain ⟨c, g', rfl⟩ := List.exists_cons_of_ne_nil hg
  have hcls := params_class h ok
  rw [e] at hcls
  let R : Str := '(' :: (h.word ++ ": ".toList ++ h.run ++ '/' :: (h.total ++ ")\n".toList))
  have e0 : h.text = "Step Information: ".toList ++ (c :: (g' ++ ([' '] ++ R))) := by
    unfold Head.text
    rw [e]
    simp only [R, List.append_assoc, List.cons_append, List.nil_append]
  let s1 : St := adv ⟨0, h.text, []⟩ "Step Information: ".toList (c :: (g' ++ ([' '] ++ R)))
  let s2 : St := St.close .params s1 (adv (adv s1 [c] (g' ++ ([' '] ++ R))) g' ([' '] ++ R))
  have hs2 : s2.rest = [' '] ++ R := rfl
  obtain ⟨x, hx, hcaps⟩ := go_stepEnd h.run h.total [] ok.run ok.total
    (adv (adv (adv s2 [' '] R) ['('] (R.drop 1)) h.word (": ".toList ++ h.run ++ '/' :: (h.total ++ (")\n".toList ++ [])))) rfl
  refine ⟨c :: g', x, e, ?_, ?_, ?_⟩
  · unfold exec
    rw [go_lits _ _ _ _ (c :: (g' ++ ([' '] ++ R))) e0, go_seq, go_grp]
    unfold plus
    rw [go_seq, go_cls _ _ _ c (g' ++ ([' '] ++ R)) rfl (hcls c (by simp))]
    refine go_star_back _ _ _ g' [' '] R rfl (fun d hd => hcls d (by simp [hd])) (fun d hd => hcls d (by simp at hd; simp [hd])) ?_ ?_ x ?_
    · intro d hd; simp [R] at hd; subst hd; exact open_not_class w
    · intro b d hbd hb
      have : b = [' '] ∧ d = [] := by
        cases b with
        | nil => exact absurd rfl hb
        | cons y b => simp at hbd; exact ⟨by rw [hbd.1, hbd.2.1], hbd.2.2⟩
      obtain ⟨rfl, rfl⟩ := this
      rw [go_seq, go_seq]
      exact go_cls_none _ _ _ (by intro d hd; simp [R, adv, St.close] at hd; subst hd; decide)
    · show go (.seq (plus (lit ' ')) (.seq (lit '(') (.seq wordRe stepEnd))) some s2 = some x
      rw [go_seq]
      refine go_plus _ _ s2 [' '] R (by simp) hs2 (by simp) (by intro d hd; simp [R] at hd; subst hd; decide) x ?_
      rw [go_seq]
      unfold lit
      rw [go_cls _ _ _ '(' (R.drop 1) rfl (by decide), go_seq,
        hword _ _ (": ".toList ++ h.run ++ '/' :: (h.total ++ (")\n".toList ++ []))) (by simp [R, adv])]
      exact hx
  · have hb : Between s1 (adv (adv s1 [c] (g' ++ ([' '] ++ R))) g' ([' '] ++ R)) (c :: g') := ⟨rfl, by simp [adv, Nat.add_assoc, Nat.add_comm]⟩
    have h2 : x.caps = (.number, (adv (adv (adv s2 [' '] R) ['('] (List.drop 1 R)) h.word (": ".toList ++ h.run ++ '/' :: (h.total ++ (")\n".toList ++ [])))).pos + 2, h.run) ::
        (.params, s1.pos, c :: g') :: s1.caps := hcaps.trans (congrArg (fun t => _ :: t) (close_text .params hb))
    simp only [group, St.get, h2]
    rfl
  · simp [group, St.get, hcaps, List.lookup]

/-- The words of the parameters of a header. -/
theorem words_params (ps : List (Str × Str × Nat)) (hc : ∀ p ∈ ps, ∀ c, c ∈ p.1 ∨ c ∈ p.2.1 → isSpace c = false) (hb : ∀ p ∈ ps, 0 < p.2.2) :
    words [] (ps.flatMap paramText) = ps.map (fun p => p.1 ++ '=' :: p.2.1) := by
  induction ps with
  | nil => rfl
  | cons p ps ih =>
    have e : (p :: ps).flatMap paramText = (p.1 ++ '=' :: p.2.1) ++ (List.replicate p.2.2 ' ' ++ ps.flatMap paramText) := by
      simp [paramText]
    rw [e, words_word, words_after, ih, List.map_cons]
    · rfl
    · exact fun q hq => hc q (by simp [hq])
    · exact fun q hq => hb q (by simp [hq])
    · simp
    · have := hb p (by simp); intro h; simp at h; omega
    · intro c hc; simp at hc; rw [hc.2]; decide
    · intro c hc'
      simp only [List.mem_append, List.mem_cons] at hc'
      rcases hc' with h | h | h
      · exact hc p (by simp) c (.inl h)
      · subst h; decide
      · exact hc p (by simp) c (.inr h)

theorem words_back (g : Str) : ∀ cur : Str, words cur (g ++ [' ']) = words cur g := by
  induction g with
  | nil => intro cur; by_cases h : cur = [] <;> simp [words, h, show isSpace ' ' = true by decide]
  | cons c g ih =>
    intro cur
    simp only [List.cons_append, words, ih]

theorem keyValue_pair (k v : Str) (hk : '=' ∉ k) (hv : '=' ∉ v) : splitOn '=' (k ++ '=' :: v) = [k, v] := by
  rw [Props.LogRead.splitOn_cons '=' k v (by rintro c hc rfl; exact hk hc), Props.LogRead.splitOn_clean '=' v (by rintro c hc rfl; exact hv hc)]

theorem char_facts (h : Head) (ok : h.Ok w.word) : ∀ p ∈ h.params, ∀ c, c ∈ p.1 ∨ c ∈ p.2.1 → isSpace c = false ∧ c ≠ '=' := by
  intro p hp c hc
  rcases ok.chars p hp c hc with h | h | h
  · have := w.not c h
    exact ⟨this.1, fun e => this.2 (by simp [e])⟩
  · subst h; decide
  · subst h; decide

theorem isStep_head (h : Head) : isStep h.text = true := by
  unfold isStep
  rw [List.isPrefixOf_iff_prefix]
  refine ⟨' ' :: (h.params.flatMap paramText ++ '(' :: (h.word ++ ": ".toList ++ h.run ++ '/' :: (h.total ++ ")\n".toList))), ?_⟩
  unfold Head.text
  rfl

/-- C48: a step header is read: run number, keys and values. -/
theorem C48_header_read (w : WordClass) (h : Head) (ok : h.Ok w.word) :
    toX w h.text = .step h.run (h.params.map (fun p => (p.1, some p.2.1))) := by
  obtain ⟨g, x, e, hx, h1, h2⟩ : ∃ (g : Str) (x : St), h.params.flatMap paramText = g ++ [' '] ∧ exec (stepRe w) h.text = some x ∧
      group x .params = g ∧ group x .number = h.run := by
    refine go_head _ h ok ?_
    intro k s rest hs
    rcases ok.word with e | e
    · rw [e] at hs ⊢; exact go_word_run k s rest hs
    · rw [e] at hs ⊢; exact go_word_step k s rest hs
  unfold toX
  rw [if_pos (isStep_head h), hx]
  simp only [h1, h2]
  rw [← words_back, ← e, words_params _ (fun p hp c hc => (char_facts h ok p hp c hc).1) ok.blanks, List.map_map]
  congr 1
  apply List.map_congr_left
  intro p hp
  simp only [Function.comp, keyValue]
  rw [keyValue_pair p.1 p.2.1 (fun hc => (char_facts h ok p hp _ (.inl hc)).2 rfl) (fun hc => (char_facts h ok p hp _ (.inr hc)).2 rfl)]
  rfl

theorem toX_row (w : WordClass) (r : Str) (h : RowOk r) : toX w r = .data r := by
  unfold toX
  rw [if_neg]
  intro e
  exact h.notStep (List.isPrefixOf_iff_prefix.1 e)

/-! ### Lines -/

theorem fileLines_line (l : Str) (h : '\n' ∉ l) (rest : Str) : fileLines (l ++ '\n' :: rest) = (l ++ ['\n']) :: fileLines rest := by
  induction l with
  | nil => simp [fileLines]
  | cons c l ih =>
    simp only [List.mem_cons, not_or] at h
    simp only [List.cons_append, fileLines, if_neg (Ne.symm h.1), ih h.2]

def Closed (l : Str) : Prop := ∃ b : Str, l = b ++ ['\n'] ∧ '\n' ∉ b

theorem fileLines_closed (ls : List Str) (h : ∀ l ∈ ls, Closed l) : fileLines ls.flatten = ls := by
  induction ls with
  | nil => rfl
  | cons l ls ih =>
    obtain ⟨b, e, hb⟩ := h l (by simp)
    rw [List.flatten_cons, e]
    rw [show b ++ ['\n'] ++ ls.flatten = b ++ '\n' :: ls.flatten by simp, fileLines_line b hb, ih (fun l hl => h l (by simp [hl]))]

theorem head_closed (h : Head) (ok : h.Ok w.word) : Closed h.text := by
  refine ⟨"Step Information: ".toList ++ h.params.flatMap paramText ++ '(' :: (h.word ++ ": ".toList ++ h.run ++ '/' :: (h.total ++ ")".toList)), ?_, ?_⟩
  · unfold Head.text
    rw [show ")\n".toList = ")".toList ++ ['\n'] from rfl]
    simp only [List.append_assoc, List.cons_append]
  · intro hc
    simp only [List.mem_append, List.mem_cons] at hc
    have hd : ('\n').isDigit = false := by decide
    rcases hc with (hc | hc) | hc | ((hc | hc) | hc) | hc | hc | hc
    · revert hc; decide
    · have := params_class h ok _ hc
      have hw : w.word '\n' = false := by
        cases h : w.word '\n' with
        | false => rfl
        | true => have := (w.not _ h).1; revert this; decide
      simp [stepClass, hw] at this
    · revert hc; decide
    · rcases ok.word with e | e <;> (rw [e] at hc; revert hc; decide)
    · revert hc; decide
    · have := ok.run _ hc; rw [hd] at this; cases this
    · revert hc; decide
    · have := ok.total _ hc; rw [hd] at this; cases this
    · revert hc; decide

theorem joinTab_eq (l : List Str) : joinTab l = tabs l := by
  induction l with
  | nil => rfl
  | cons a l ih =>
    cases l with
    | nil => simp [joinTab, tabs, List.intercalate]
    | cons b l =>
      simp only [joinTab, ih]
      simp [tabs, List.intercalate]

theorem tabs_cons (a : Str) (l : List Str) (b : Str) : tabs (a :: l ++ [b]) = a ++ '\t' :: (if l = [] then b else tabs l ++ '\t' :: b) := by
  induction l generalizing a with
  | nil => simp [tabs, List.intercalate]
  | cons c l ih =>
    have := ih c
    simp only [List.cons_append] at this ⊢
    rw [show tabs (a :: c :: (l ++ [b])) = a ++ '\t' :: tabs (c :: (l ++ [b])) by simp [tabs, List.intercalate], this]
    cases l with
    | nil => simp [tabs, List.intercalate]
    | cons d l => simp [tabs, List.intercalate]

/-! ### Whole files -/

/-- The lines of a file: its titles, and for every step the header and the rows. -/
theorem lines_of_file (titles : Str) (ht : Closed titles) (steps : List (Head × List Str)) (hok : ∀ s ∈ steps, s.1.Ok w.word ∧ ∀ r ∈ s.2, RowOk r) :
    fileLines (fileText titles steps) = titles :: steps.flatMap (fun s => s.1.text :: s.2) := by
  have e : fileText titles steps = (titles :: steps.flatMap (fun s => s.1.text :: s.2)).flatten := by
    unfold fileText
    rw [List.flatten_cons]
    congr 1
    induction steps with
    | nil => rfl
    | cons s steps ih =>
      simp only [List.flatMap_cons, List.flatten_append, List.flatten_cons, List.append_assoc]
      rw [ih (fun s hs => hok s (by simp [hs]))]
  rw [e]
  apply fileLines_closed
  intro l hl
  simp only [List.mem_cons, List.mem_flatMap] at hl
  rcases hl with rfl | ⟨s, hs, rfl | hl⟩
  · exact ht
  · exact head_closed _ (hok s hs).1
  · exact ((hok s hs).2 l hl).eol

theorem loop_rows (w : WordClass) (go : Bool) (run : Str) (vals : List Str) (rows : List Str) (h : ∀ r ∈ rows, RowOk r) (rest : List XLine) (out : List OLine)
    (hr : reformatLoop go run vals rest = some out) :
    reformatLoop go run vals (rows.map (toX w) ++ rest) = some (rows.map (fun r => .row run vals r) ++ out) := by
  induction rows with
  | nil => exact hr
  | cons r rows ih =>
    simp only [List.map_cons, List.cons_append, toX_row w r (h r (by simp)), reformatLoop, ih (fun r hr => h r (by simp [hr]))]

theorem mapM_snd (ps : List (Str × Str × Nat)) : (ps.map (fun p => ((p.1, some p.2.1) : Str × Option Str))).mapM (fun x => x.2) = some (ps.map (fun p => p.2.1)) := by
  induction ps with
  | nil => rfl
  | cons p ps ih => rw [List.map_cons, List.mapM_cons, ih]; rfl

theorem loop_steps (w : WordClass) (steps : List (Head × List Str)) (hok : ∀ s ∈ steps, s.1.Ok w.word ∧ ∀ r ∈ s.2, RowOk r) :
    ∀ (run : Str) (vals : List Str), reformatLoop false run vals ((steps.flatMap (fun s => s.1.text :: s.2)).map (toX w)) =
      some (steps.flatMap (fun s => s.2.map (fun r => .row s.1.run s.1.values r))) := by
  induction steps with
  | nil => intro run vals; rfl
  | cons s steps ih =>
    intro run vals
    simp only [List.flatMap_cons, List.cons_append, List.map_cons, List.map_append]
    rw [C48_header_read w s.1 (hok s (by simp)).1, reformatLoop, mapM_snd]
    have := loop_rows w false s.1.run s.1.values s.2 (hok s (by simp)).2 _ _ (ih (fun s hs => hok s (by simp [hs])) s.1.run s.1.values)
    simp only [Head.values] at this ⊢
    rw [this]
    simp

/-- C48: for every export file with steps, the tabular file consists of one line of titles ("Run", the names of the parameters, the original titles)
and of every data line, once, in order, behind the run number and the parameter values of its step. -/
theorem C48_file (w : WordClass) (titles : Str) (ht : ∃ b : Str, titles = b ++ ['\n'] ∧ '\n' ∉ b) (first : Head × List Str) (steps : List (Head × List Str))
    (hok : ∀ s ∈ first :: steps, s.1.Ok w.word ∧ ∀ r ∈ s.2, RowOk r) :
    reformatText w (fileText titles (first :: steps)) = some (tabular titles first.1 (first :: steps)) := by
  unfold reformatText
  rw [lines_of_file titles ht _ hok]
  have hrun : reformat (((first :: steps).flatMap (fun s => s.1.text :: s.2)).map (toX w)) =
      some (.header first.1.keys :: (first :: steps).flatMap (fun s => s.2.map (fun r => .row s.1.run s.1.values r))) := by
    unfold reformat
    simp only [List.flatMap_cons, List.cons_append, List.map_cons, List.map_append]
    rw [C48_header_read w first.1 (hok first (by simp)).1, reformatLoop, mapM_snd]
    have := loop_rows w false first.1.run first.1.values first.2 (hok first (by simp)).2 _ _ (loop_steps w steps (fun s hs => hok s (by simp [hs])) first.1.run first.1.values)
    simp only [Head.values, Head.keys] at this ⊢
    rw [this]
    simp
  rw [List.tail_cons, List.headD_cons, hrun, Option.map_some, Option.some.injEq, List.flatMap_cons]
  unfold tabular
  have hne : ∀ s ∈ first :: steps, s.1.values ≠ [] := fun s hs => by simpa [Head.values] using (hok s hs).1.some
  have hkey : first.1.keys ≠ [] := by simpa [Head.keys] using (hok first (by simp)).1.some
  have hblock : ∀ s ∈ first :: steps, (s.2.map (fun r => OLine.row s.1.run s.1.values r)).flatMap (render titles) =
      s.2.flatMap (fun row => tabs (s.1.run :: s.1.values ++ [row])) := by
    intro s hs
    rw [List.flatMap_map]
    have := hne s hs
    congr 1
    funext r
    rw [tabs_cons, if_neg this]
    simp [render, joinTab_eq]
  congr 1
  · rw [tabs_cons, if_neg hkey]
    simp [render, joinTab_eq]
  · rw [List.flatMap_assoc]
    generalize first :: steps = all at hblock
    induction all with
    | nil => rfl
    | cons s all ih =>
      simp only [List.flatMap_cons]
      rw [hblock s (by simp), ih (fun s hs => hblock s (by simp [hs]))]

/-! ### Limits -/

theorem plus_text {s t : St} {p : Char → Bool} (h : Run (plus (.cls p)) s t) : ∃ a, Between s t a ∧ ∀ c ∈ a, p c = true := by
  obtain ⟨a, _, h1, h2, _⟩ := run_plus_cls h
  exact ⟨a, h1, h2⟩

theorem run_lits (a : Str) (r : Re) : ∀ (s t : St), Run (lits a r) s t → ∃ u : St, Between s u a ∧ Run r u t := by
  induction a with
  | nil => intro s t h; exact ⟨s, .refl s, h⟩
  | cons c a ih =>
    intro s t h
    simp only [lits] at h
    cases h with
    | @seq _ _ _ u _ h1 h2 =>
      unfold lit at h1
      cases h1 with
      | @cls _ _ d r' hr hp =>
        obtain ⟨v, hv, hr2⟩ := ih _ _ h2
        have hd : d = c := by simpa using hp
        subst hd
        have hb : Between s (s.next r') [d] := ⟨hr, rfl⟩
        exact ⟨v, hb.trans hv, hr2⟩

/-- C48 (limit): a step line with a character outside letters, digits, `_ = . -` and blank before its parenthesis (such as the `+` of `1e+06`) is not
recognised. -/
theorem C48_header_not_read (w : WordClass) (a b : Str) (c : Char) (ha : '(' ∉ a) (hc : c ≠ '(') (hw : stepClass w c = false) :
    toX w ("Step Information: ".toList ++ a ++ c :: b) = .badStep := by
  have hstep : isStep ("Step Information: ".toList ++ a ++ c :: b) = true := by
    unfold isStep
    rw [List.isPrefixOf_iff_prefix]
    exact ⟨' ' :: (a ++ c :: b), by simp⟩
  unfold toX
  rw [if_pos hstep]
  have : exec (stepRe w) ("Step Information: ".toList ++ a ++ c :: b) = none := by
    cases he : exec (stepRe w) ("Step Information: ".toList ++ a ++ c :: b) with
    | none => rfl
    | some x =>
      obtain ⟨t, ht⟩ := (exec_iff _ _).1 (by rw [he]; rfl)
      obtain ⟨u, hu, h1⟩ := run_lits _ _ _ _ ht
      have hrest : u.rest = a ++ c :: b := by
        have := hu.text
        simp only [List.append_assoc] at this
        exact (List.append_cancel_left this).symm
      cases h1 with
      | @seq _ _ _ v _ h1 h2 =>
      cases h1 with
      | @grp _ _ _ v' h1 =>
      obtain ⟨p, hp, hpc⟩ := plus_text h1
      cases h2 with
      | @seq _ _ _ v2 _ h2 h3 =>
      obtain ⟨q, hq, hqc⟩ := plus_text h2
      cases h3 with
      | @seq _ _ _ v3 _ h3 h4 =>
      unfold lit at h3
      cases h3 with
      | @cls _ _ d r' hr hd =>
      have hd : d = '(' := by simpa using hd
      subst hd
      have e1 : a ++ c :: b = p ++ (q ++ '(' :: r') := by
        rw [← hrest, hp.text]
        have : v'.rest = q ++ v2.rest := hq.text
        rw [this, hr]
      -- c stands before the parenthesis
      have e2 : a ++ c :: b = (p ++ q) ++ '(' :: r' := by rw [e1]; simp
      rcases List.append_eq_append_iff.1 e2 with ⟨z, hz1, hz2⟩ | ⟨z, hz1, hz2⟩
      · cases z with
        | nil => simp at hz2; exact absurd hz2.1 hc
        | cons y z =>
          simp at hz2
          obtain ⟨rfl, _⟩ := hz2
          have hmem : c ∈ p ++ q := by rw [hz1]; simp
          rcases List.mem_append.1 hmem with h | h
          · have := hpc c h; rw [hw] at this; cases this
          · have := hqc c h
            have hsp : c = ' ' := by simpa using this
            subst hsp
            simp [stepClass] at hw
      · cases z with
        | nil => simp at hz2; exact absurd hz2.1.symm hc
        | cons y z =>
          simp at hz2
          obtain ⟨rfl, _⟩ := hz2
          exact absurd (by rw [hz1]; simp) ha
  rw [this]

theorem fileLines_append (a : Str) (ha : a = [] ∨ a.getLast? = some '\n') (b : Str) : fileLines (a ++ b) = fileLines a ++ fileLines b := by
  induction a with
  | nil => rfl
  | cons c a ih =>
    have ha' : a = [] ∨ a.getLast? = some '\n' := by
      rcases ha with h | h
      · simp at h
      · cases a with
        | nil => exact .inl rfl
        | cons d a => right; simpa using h
    simp only [List.cons_append, fileLines, ih ha']
    by_cases hc : c = '\n'
    · simp [hc]
    · simp only [if_neg hc]
      cases hl : fileLines a with
      | nil =>
        exfalso
        cases a with
        | nil => simp at ha; exact hc ha
        | cons d a =>
          simp only [fileLines] at hl
          split at hl
          · cases hl
          · split at hl <;> cases hl
      | cons l ls => rfl

theorem reformatLoop_bad (a b : List XLine) : ∀ (go : Bool) (run : Str) (vals : List Str),
    reformatLoop go run vals (a ++ XLine.badStep :: b) = reformatLoop go run vals (a ++ b) := by
  induction a with
  | nil => intro go run vals; rfl
  | cons x a ih =>
    intro go run vals
    cases x with
    | badStep => simpa [reformatLoop] using ih go run vals
    | data t => simp only [List.cons_append, reformatLoop, ih]
    | step r ps => simp only [List.cons_append, reformatLoop, ih]

/-- C48 (finding): a step line that is not recognised is dropped without any message: the file written is the one of the file without that line, so
the rows of that step carry the run number and values of the step before. -/
theorem C48_step_lost (w : WordClass) (titles before bad after : Str) (ht : ∃ b : Str, titles = b ++ ['\n'] ∧ '\n' ∉ b)
    (hb : before = [] ∨ before.getLast? = some '\n') (hbad : ∃ b : Str, bad = b ++ ['\n'] ∧ '\n' ∉ b) (h : toX w bad = .badStep) :
    reformatText w (titles ++ (before ++ (bad ++ after))) = reformatText w (titles ++ (before ++ after)) := by
  obtain ⟨b1, rfl, h1⟩ := ht
  have hx : ∀ t : Str, fileLines (b1 ++ ['\n'] ++ t) = (b1 ++ ['\n']) :: fileLines t := by
    intro t
    rw [← fileLines_line b1 h1]; simp
  have hy : fileLines (bad ++ after) = bad :: fileLines after := by
    obtain ⟨b2, rfl, h2⟩ := hbad
    rw [← fileLines_line b2 h2]; simp
  unfold reformatText
  simp only [hx, List.tail_cons, List.headD_cons, fileLines_append _ hb, hy, List.map_append, List.map_cons, h]
  unfold reformat
  rw [reformatLoop_bad]

/-- C48 (finding): in a file without steps every line gets two empty-handed columns, "0" and nothing, and the titles are lost. -/
theorem C48_no_steps (w : WordClass) (titles : Str) (ht : ∃ b : Str, titles = b ++ ['\n'] ∧ '\n' ∉ b) (rows : List Str) (h : ∀ r ∈ rows, RowOk r) :
    reformatText w (titles ++ rows.flatten) = some (rows.flatMap (fun r => "0\t\t".toList ++ r)) := by
  obtain ⟨b1, rfl, h1⟩ := ht
  have hx : fileLines (b1 ++ ['\n'] ++ rows.flatten) = (b1 ++ ['\n']) :: rows := by
    rw [show b1 ++ ['\n'] ++ rows.flatten = b1 ++ '\n' :: rows.flatten by simp, fileLines_line b1 h1, fileLines_closed rows (fun r hr => (h r hr).eol)]
  unfold reformatText
  rw [hx]
  have := loop_rows w true ['0'] [] rows h [] [] rfl
  rw [List.append_nil, List.append_nil] at this
  simp only [List.tail_cons, List.headD_cons, reformat, this, Option.map_some, List.flatMap_map]
  rfl

/-! ### C64: the columns of LTSpiceExport -/

open Model.LogData (lower Dict)
open Model.LogRead (appendKeys exportLoop put push)
open Props.LogRead (column column_push lookup_put putAll)

variable {V : Type}

theorem push_keys (k : Str) (v : V) (d : Dict (List V)) (h : k ∈ d.map Prod.fst) : (push k v d).map Prod.fst = d.map Prod.fst := by
  induction d with
  | nil => simp at h
  | cons e d ih =>
    obtain ⟨a, c⟩ := e
    rw [push]
    by_cases ha : a = k
    · rw [if_pos ha]; rfl
    · rw [if_neg ha, List.map_cons, ih]
      · rfl
      · simp only [List.map_cons, List.mem_cons] at h
        exact h.resolve_left (fun e => ha e.symm)

theorem appendKeys_ok (kvs : List (Str × V)) : ∀ d : Dict (List V), (∀ e ∈ kvs, e.1 ∈ d.map Prod.fst) →
    ∃ d', appendKeys kvs d = some d' ∧ d'.map Prod.fst = d.map Prod.fst ∧ ∀ k, column d' k = column d k ++ (kvs.filter (fun e => e.1 = k)).map Prod.snd := by
  induction kvs with
  | nil => intro d _; exact ⟨d, rfl, rfl, by simp⟩
  | cons e kvs ih =>
    intro d h
    obtain ⟨k0, v0⟩ := e
    have h0 : k0 ∈ d.map Prod.fst := h (k0, v0) (by simp)
    have hk := push_keys k0 v0 d h0
    obtain ⟨d', h1, h2, h3⟩ := ih (push k0 v0 d) (fun e he => by rw [hk]; exact h e (by simp [he]))
    refine ⟨d', ?_, h2.trans hk, ?_⟩
    · rw [appendKeys, if_pos (by simpa using h0)]; exact h1
    · intro k
      rw [h3 k, column_push]
      by_cases e : k = k0
      · subst e; simp
      · rw [if_neg e, List.filter_cons, if_neg (by simpa using Ne.symm e)]

theorem put_new (k : Str) (v : V) (d : Dict V) (h : k ∉ d.map Prod.fst) : put k v d = d ++ [(k, v)] := by
  induction d with
  | nil => rfl
  | cons e d ih =>
    obtain ⟨a, c⟩ := e
    simp only [List.map_cons, List.mem_cons, not_or] at h
    rw [put, if_neg (Ne.symm h.1), ih h.2]; rfl

theorem put_old (k : Str) (v v' : V) (a d : Dict V) (h : k ∉ a.map Prod.fst) : put k v (a ++ (k, v') :: d) = a ++ (k, v) :: d := by
  induction a with
  | nil => simp [put]
  | cons e a ih =>
    obtain ⟨b, c⟩ := e
    simp only [List.map_cons, List.mem_cons, not_or] at h
    rw [List.cons_append, put, if_neg (Ne.symm h.1), ih h.2]; rfl

theorem putAll_new (kvs : List (Str × V)) : ∀ a : Dict V, ((a ++ kvs).map Prod.fst).Nodup → putAll a kvs = a ++ kvs := by
  induction kvs with
  | nil => intro a _; simp [putAll]
  | cons e kvs ih =>
    intro a h
    have hn : e.1 ∉ a.map Prod.fst := by
      rw [List.map_append, List.nodup_append] at h
      intro hc
      exact h.2.2 _ hc _ (by simp) rfl
    show putAll (put e.1 e.2 a) kvs = _
    rw [put_new _ _ _ hn, ih]
    · simp
    · simpa using h

theorem putAll_old (kvs : List (Str × V)) : ∀ (a old : Dict V), old.map Prod.fst = kvs.map Prod.fst → ((a ++ kvs).map Prod.fst).Nodup →
    putAll (a ++ old) kvs = a ++ kvs := by
  induction kvs with
  | nil => intro a old h _; simp at h; simp [putAll, h]
  | cons e kvs ih =>
    intro a old h hnd
    cases old with
    | nil => simp at h
    | cons o old =>
      obtain ⟨k, v⟩ := e
      obtain ⟨k', v'⟩ := o
      simp only [List.map_cons, List.cons.injEq] at h
      obtain ⟨rfl, h⟩ := h
      have hn : k' ∉ a.map Prod.fst := by
        rw [List.map_append, List.nodup_append] at hnd
        intro hc
        exact hnd.2.2 _ hc _ (by simp) rfl
      show putAll (put k' v (a ++ (k', v') :: old)) kvs = _
      rw [put_old _ _ _ _ _ hn, show a ++ (k', v) :: old = (a ++ [(k', v)]) ++ old by simp, ih _ _ h (by simpa using hnd)]
      simp

/-- The values a step gives to every row. -/
def stepEntries (conv raw : Str → V) (h : Head) : List (Str × V) :=
  ("runno".toList, raw h.run) :: h.params.map (fun p => (p.1, conv p.2.1))

theorem lower_runno : lower "runno".toList = "runno".toList := by decide

def lowKeys (l : List (Str × V)) : List (Str × V) := l.map (fun e => (lower e.1, e.2))

/-- One row. -/
theorem export_row (conv raw : Str → V) (headers cells : List Str) (hl : cells.length = headers.length) (go : Bool) (cur : Dict V) (d : Dict (List V))
    (hk : ∀ k, k ∈ d.map Prod.fst ↔ k ∈ headers.map lower ∨ k ∈ (cur.map Prod.fst).map lower) :
    ∃ d', d'.map Prod.fst = d.map Prod.fst ∧
      (∀ k, column d' k = column d k ++ ((lowKeys cur ++ (headers.map lower).zip (cells.map conv)).filter (fun e => e.1 = k)).map Prod.snd) ∧
      ∀ ls, exportLoop conv raw headers go cur d (.data cells :: ls) = exportLoop conv raw headers go cur d' ls := by
  obtain ⟨d1, h1, h2, h3⟩ := appendKeys_ok (cur.map (fun e => (lower e.1, e.2))) d (by
    intro e he
    rw [List.mem_map] at he
    obtain ⟨f, hf, rfl⟩ := he
    rw [hk]
    right
    simp only [List.map_map, List.mem_map, Function.comp]
    exact ⟨f, hf, rfl⟩)
  obtain ⟨d2, h4, h5, h6⟩ := appendKeys_ok ((headers.zip cells).map (fun p => (lower p.1, conv p.2))) d1 (by
    intro e he
    rw [List.mem_map] at he
    obtain ⟨f, hf, rfl⟩ := he
    rw [h2, hk]
    left
    exact List.mem_map.2 ⟨f.1, (List.of_mem_zip hf).1, rfl⟩)
  refine ⟨d2, h5.trans h2, ?_, ?_⟩
  · intro k
    rw [h6, h3, List.append_assoc, List.filter_append, List.map_append, List.zip_map]
    rfl
  · intro ls
    rw [exportLoop, h1]
    simp only
    rw [if_neg (by omega), h4]

/-- The rows of a step. -/
theorem export_rows (conv raw : Str → V) (headers : List Str) (go : Bool) (cur : Dict V) (rows : List (List Str)) : (∀ r ∈ rows, r.length = headers.length) →
    ∀ (d : Dict (List V)), (∀ k, k ∈ d.map Prod.fst ↔ k ∈ headers.map lower ∨ k ∈ (cur.map Prod.fst).map lower) →
    ∃ d', d'.map Prod.fst = d.map Prod.fst ∧
      (∀ k, column d' k = column d k ++ rows.flatMap (fun r => ((lowKeys cur ++ (headers.map lower).zip (r.map conv)).filter (fun e => e.1 = k)).map Prod.snd)) ∧
      ∀ ls, exportLoop conv raw headers go cur d (rows.map ELine.data ++ ls) = exportLoop conv raw headers go cur d' ls := by
  induction rows with
  | nil => intro _ d hk; exact ⟨d, rfl, by simp, fun ls => rfl⟩
  | cons r rows ih =>
    intro hl d hk
    obtain ⟨d1, h1, h2, h3⟩ := export_row conv raw headers r (hl r (by simp)) go cur d hk
    obtain ⟨d2, h4, h5, h6⟩ := ih (fun r hr => hl r (by simp [hr])) d1 (by rw [h1]; exact hk)
    refine ⟨d2, h4.trans h1, ?_, ?_⟩
    · intro k
      rw [h5, h2, List.flatMap_cons, List.append_assoc]
    · intro ls
      rw [List.map_cons, List.cons_append, h3, h6]

theorem step_cur (conv raw : Str → V) (h : Head) (cur : Dict V) (hk : cur = [] ∨ cur.map Prod.fst = "runno".toList :: h.keys)
    (hnd : ("runno".toList :: h.keys).Nodup) :
    (h.params.map (fun p => (p.1, p.2.1))).foldl (fun c p => put p.1 (conv p.2) c) (put "runno".toList (raw h.run) cur) = stepEntries conv raw h := by
  have e : (h.params.map (fun p => (p.1, p.2.1))).foldl (fun c p => put p.1 (conv p.2) c) (put "runno".toList (raw h.run) cur) =
      putAll cur (stepEntries conv raw h) := by
    unfold putAll stepEntries
    rw [List.foldl_cons, List.foldl_map, List.foldl_map]
  have hkeys : (stepEntries conv raw h).map Prod.fst = "runno".toList :: h.keys := by
    simp [stepEntries, Head.keys, Function.comp_def]
  rw [e]
  rcases hk with rfl | hk
  · have := putAll_new (stepEntries conv raw h) [] (by rw [List.nil_append, hkeys]; exact hnd)
    simpa using this
  · have := putAll_old (stepEntries conv raw h) [] cur (hk.trans hkeys.symm) (by rw [List.nil_append, hkeys]; exact hnd)
    simpa using this

theorem export_steps (conv raw : Str → V) (headers keys : List Str) (hnd : ("runno".toList :: keys).Nodup) (steps : List (Head × List (List Str))) :
    (∀ s ∈ steps, s.1.keys = keys ∧ ∀ r ∈ s.2, r.length = headers.length) →
    ∀ (cur : Dict V) (d : Dict (List V)), cur.map Prod.fst = "runno".toList :: keys →
    (∀ k, k ∈ d.map Prod.fst ↔ k ∈ headers.map lower ∨ k ∈ ("runno".toList :: keys).map lower) →
    ∃ d', d'.map Prod.fst = d.map Prod.fst ∧
      (∀ k, column d' k = column d k ++ steps.flatMap (fun s => s.2.flatMap (fun r =>
        ((lowKeys (stepEntries conv raw s.1) ++ (headers.map lower).zip (r.map conv)).filter (fun e => e.1 = k)).map Prod.snd))) ∧
      exportLoop conv raw headers false cur d (steps.flatMap (fun s => ELine.step s.1.run (s.1.params.map (fun p => (p.1, p.2.1))) :: s.2.map ELine.data)) = some d' := by
  induction steps with
  | nil => intro _ cur d _ _; exact ⟨d, rfl, by simp, by rw [List.flatMap_nil, exportLoop]⟩
  | cons s steps ih =>
    intro hok cur d hc hd
    obtain ⟨hsk, hsl⟩ := hok s (by simp)
    have hcur := step_cur conv raw s.1 cur (.inr (by rw [hc, hsk])) (by rw [hsk]; exact hnd)
    have hkeys : (stepEntries conv raw s.1).map Prod.fst = "runno".toList :: keys := by
      rw [← hsk]; simp [stepEntries, Head.keys, Function.comp_def]
    obtain ⟨d1, h1, h2, h3⟩ := export_rows conv raw headers false (stepEntries conv raw s.1) s.2 hsl d (by rw [hkeys]; exact hd)
    obtain ⟨d2, h4, h5, h6⟩ := ih (fun s hs => hok s (by simp [hs])) (stepEntries conv raw s.1) d1 hkeys (by rw [h1]; exact hd)
    refine ⟨d2, h4.trans h1, ?_, ?_⟩
    · intro k
      rw [h5, h2, List.flatMap_cons, List.append_assoc]
    · rw [List.flatMap_cons, List.cons_append, exportLoop]
      simp only [hcur, Bool.false_eq_true, if_false]
      rw [h3]
      exact h6

theorem put_mem {W : Type} (k k' : Str) (v : W) (d : Dict W) : k ∈ (put k' v d).map Prod.fst ↔ k = k' ∨ k ∈ d.map Prod.fst := by
  induction d with
  | nil => simp [put]
  | cons e d ih =>
    obtain ⟨a, c⟩ := e
    rw [put]
    by_cases ha : a = k'
    · rw [if_pos ha]; subst ha; simp
    · rw [if_neg ha, List.map_cons, List.mem_cons, ih, List.map_cons, List.mem_cons]
      constructor <;> (intro h; rcases h with h | h | h <;> simp [h])

/-- Empty columns. -/
theorem empty_columns (ns : List Str) : ∀ d : Dict (List V), (∀ k, column d k = []) →
    (∀ k, column (ns.foldl (fun x h => put h [] x) d) k = []) ∧
    ∀ k, k ∈ (ns.foldl (fun x h => put h [] x) d).map Prod.fst ↔ k ∈ ns ∨ k ∈ d.map Prod.fst := by
  induction ns with
  | nil => intro d h; exact ⟨h, by simp⟩
  | cons n ns ih =>
    intro d h
    obtain ⟨h1, h2⟩ := ih (put n [] d) (by
      intro k
      have := h k
      unfold column at this ⊢
      rw [lookup_put]
      by_cases e : k = n
      · rw [if_pos e]; rfl
      · rw [if_neg e]; exact this)
    refine ⟨h1, fun k => ?_⟩
    rw [List.foldl_cons, h2, put_mem, List.mem_cons, or_assoc, or_left_comm]

theorem read_steps (conv raw : Str → V) (headers : List Str) (first : Head × List (List Str)) (steps : List (Head × List (List Str)))
    (hnd : ("runno".toList :: first.1.keys).Nodup) (hok : ∀ s ∈ first :: steps, s.1.keys = first.1.keys ∧ ∀ r ∈ s.2, r.length = headers.length) :
    ∃ d, (∀ k, k ∈ d.map Prod.fst ↔ k ∈ headers.map lower ∨ k ∈ ("runno".toList :: first.1.keys).map lower) ∧
      (∀ k, column d k = (first :: steps).flatMap (fun s => s.2.flatMap (fun r =>
        ((lowKeys (stepEntries conv raw s.1) ++ (headers.map lower).zip (r.map conv)).filter (fun e => e.1 = k)).map Prod.snd))) ∧
      readExport conv raw headers ((first :: steps).flatMap (fun s => ELine.step s.1.run (s.1.params.map (fun p => (p.1, p.2.1))) :: s.2.map ELine.data)) = some d := by
  have hcur := step_cur conv raw first.1 [] (.inl rfl) hnd
  have hkeys : (stepEntries conv raw first.1).map Prod.fst = "runno".toList :: first.1.keys := by
    simp [stepEntries, Head.keys, Function.comp_def]
  obtain ⟨c1, k1⟩ := empty_columns (V := V) (headers.map lower) [] (fun k => rfl)
  obtain ⟨c2, k2⟩ := empty_columns (((stepEntries conv raw first.1).map Prod.fst).map lower) _ c1
  have hd : ∀ k, k ∈ (((((stepEntries conv raw first.1).map Prod.fst).map lower)).foldl (fun x h => put h [] x) ((headers.map lower).foldl (fun x h => put h [] x) ([] : Dict (List V)))).map Prod.fst ↔
      k ∈ headers.map lower ∨ k ∈ ("runno".toList :: first.1.keys).map lower := by
    intro k
    rw [k2, k1, hkeys]
    simp only [List.map_nil, List.not_mem_nil, or_false]
    exact Or.comm
  obtain ⟨d1, h1, h2, h3⟩ := export_rows conv raw headers false (stepEntries conv raw first.1) first.2 (hok first (by simp)).2 _ (by rw [hkeys]; exact hd)
  obtain ⟨d2, h4, h5, h6⟩ := export_steps conv raw headers first.1.keys hnd steps (fun s hs => hok s (by simp [hs])) (stepEntries conv raw first.1) d1 hkeys (by rw [h1]; exact hd)
  refine ⟨d2, ?_, ?_, ?_⟩
  · rw [h4, h1]; exact hd
  · intro k
    rw [h5, h2, c2, List.nil_append, List.flatMap_cons]
  · unfold readExport
    rw [List.flatMap_cons, List.cons_append, exportLoop]
    simp only [hcur, if_true]
    rw [← h6, ← h3]
    congr 1
    simp only [List.foldl_map]

theorem filter_one {α : Type} (l : List (Str × α)) (hnd : (l.map Prod.fst).Nodup) (e : Str × α) (he : e ∈ l) : (l.filter (fun x => x.1 = e.1)).map Prod.snd = [e.2] := by
  induction l with
  | nil => simp at he
  | cons x l ih =>
    simp only [List.map_cons, List.nodup_cons] at hnd
    rcases List.mem_cons.1 he with rfl | he
    · have : l.filter (fun x => x.1 = e.1) = [] := by
        rw [List.filter_eq_nil_iff]
        intro y hy hc
        apply hnd.1
        rw [← show y.1 = e.1 by simpa using hc]
        exact List.mem_map_of_mem hy
      simp [this]
    · have hx : ¬ x.1 = e.1 := by
        intro hc
        exact hnd.1 (hc ▸ List.mem_map_of_mem he)
      rw [List.filter_cons, if_neg (by simpa using hx)]
      exact ih hnd.2 he

/-! ### Lines -/

theorem withEol_length (l : List Str) : (withEol l).length = l.length := by
  induction l with
  | nil => rfl
  | cons a l ih =>
    cases l with
    | nil => rfl
    | cons b l => simpa [withEol] using ih

theorem split_row (cells : List Str) (hne : cells ≠ []) (hc : ∀ c ∈ cells, '\t' ∉ c) : splitOn '\t' (rowText cells) = withEol cells := by
  induction cells with
  | nil => exact absurd rfl hne
  | cons a cells ih =>
    have ha : ∀ x ∈ a, x ≠ '\t' := by rintro x hx rfl; exact hc a (by simp) hx
    cases cells with
    | nil =>
      have : rowText [a] = a ++ ['\n'] := by simp [rowText, tabs, List.intercalate]
      rw [this, Props.LogRead.splitOn_clean]
      · rfl
      · intro x hx
        rcases List.mem_append.1 hx with h | h
        · exact ha x h
        · simp at h; subst h; decide
    | cons b cells =>
      have : rowText (a :: b :: cells) = a ++ '\t' :: rowText (b :: cells) := by simp [rowText, tabs, List.intercalate]
      rw [this, Props.LogRead.splitOn_cons _ _ _ ha, ih (by simp) (fun c h => hc c (by simp [h]))]
      rfl

theorem row_closed (cells : List Str) (hc : ∀ c ∈ cells, '\n' ∉ c) : ∃ b : Str, rowText cells = b ++ ['\n'] ∧ '\n' ∉ b := by
  refine ⟨tabs cells, rfl, ?_⟩
  induction cells with
  | nil => simp [tabs, List.intercalate]
  | cons a cells ih =>
    have h1 := hc a (by simp)
    have h2 := ih (fun c h => hc c (by simp [h]))
    cases cells with
    | nil => simpa [tabs, List.intercalate] using h1
    | cons b cells =>
      have : tabs (a :: b :: cells) = a ++ '\t' :: tabs (b :: cells) := by simp [tabs, List.intercalate]
      rw [this]
      simp only [List.mem_append, List.mem_cons, not_or]
      exact ⟨h1, by decide, h2⟩

theorem row_ok (cells : List Str) (h : CellsOk cells) : RowOk (rowText cells) :=
  ⟨row_closed cells (fun c hc => (h.clean c hc).2), h.notStep⟩

theorem toE_row (w : WordClass) (cells : List Str) (h : CellsOk cells) : toE w (rowText cells) = some (some (.data (withEol cells))) := by
  unfold toE
  rw [if_neg, split_row cells h.some (fun c hc => (h.clean c hc).1)]
  intro e
  exact h.notStep (List.isPrefixOf_iff_prefix.1 e)

theorem toE_head (w : WordClass) (h : Head) (ok : h.Ok w.word) (hw : h.word = "Run".toList) :
    toE w h.text = some (some (.step h.run (h.params.map (fun p => (p.1, p.2.1))))) := by
  obtain ⟨g, x, e, hx, h1, h2⟩ : ∃ (g : Str) (x : St), h.params.flatMap paramText = g ++ [' '] ∧ exec (runRe w) h.text = some x ∧
      group x .params = g ∧ group x .number = h.run := by
    refine go_head _ h ok ?_
    intro k s rest hs
    rw [hw] at hs ⊢
    rw [go_lits _ _ _ s rest hs]
    rfl
  unfold toE
  rw [if_pos (isStep_head h), hx]
  simp only [h1, h2]
  rw [← words_back, ← e, words_params _ (fun p hp c hc => (char_facts h ok p hp c hc).1) ok.blanks]
  have : (h.params.map (fun p => p.1 ++ '=' :: p.2.1)).mapM pair =
      some (h.params.map (fun p => (p.1, p.2.1))) := by
    have hf := char_facts h ok
    generalize h.params = ps at hf
    clear e hx h1 h2
    induction ps with
    | nil => rfl
    | cons p ps ih =>
      rw [List.map_cons, List.mapM_cons, pair, keyValue_pair p.1 p.2.1 (fun hc => (hf p (by simp) _ (.inl hc)).2 rfl) (fun hc => (hf p (by simp) _ (.inr hc)).2 rfl),
        ih (fun q hq => hf q (by simp [hq]))]
      rfl
  rw [this]

theorem mapM_toE (w : WordClass) (steps : List (Head × List (List Str))) (hok : ∀ s ∈ steps, s.1.Ok w.word ∧ s.1.word = "Run".toList ∧ ∀ r ∈ s.2, CellsOk r) :
    (steps.flatMap (fun s => s.1.text :: s.2.map rowText)).mapM (toE w) =
      some ((steps.flatMap (fun s => ELine.step s.1.run (s.1.params.map (fun p => (p.1, p.2.1))) :: (s.2.map withEol).map ELine.data)).map some) := by
  induction steps with
  | nil => rfl
  | cons s steps ih =>
    obtain ⟨h1, h2, h3⟩ := hok s (by simp)
    have hrows : ∀ rows : List (List Str), (∀ r ∈ rows, CellsOk r) → (rows.map rowText).mapM (toE w) = some (((rows.map withEol).map ELine.data).map some) := by
      intro rows
      induction rows with
      | nil => intro _; rfl
      | cons r rows ihr =>
        intro h
        rw [List.map_cons, List.mapM_cons, toE_row w r (h r (by simp)), ihr (fun r hr => h r (by simp [hr]))]
        rfl
    rw [List.flatMap_cons, List.mapM_append, List.mapM_cons, toE_head w s.1 h1 h2, hrows s.2 h3, ih (fun s hs => hok s (by simp [hs]))]
    simp

/-- C64: LTSpiceExport. For an export file whose steps have the same parameters, and whose titles and parameter names differ (and differ from "runno"),
the dataset has one column for every title, one for every parameter and "runno"; every column has one entry per data line, in the order of the file: the
cell of the line, the value of the parameter in its step, and the run number of its step. The title and the cells of the last column keep the line end. -/
theorem C64_columns (w : WordClass) (conv raw : Str → V) (titles : List Str) (ht : CellsOk titles)
    (first : Head × List (List Str)) (steps : List (Head × List (List Str)))
    (hok : ∀ s ∈ first :: steps, s.1.Ok w.word ∧ s.1.word = "Run".toList ∧ s.1.keys = first.1.keys ∧ ∀ r ∈ s.2, CellsOk r ∧ r.length = titles.length)
    (hnd : (((withEol titles ++ "runno".toList :: first.1.keys).map (fun k => k.map Char.toLower))).Nodup) :
    ∃ d : List (Str × List V), readExportText w conv raw (fileText (rowText titles) ((first :: steps).map (fun s => (s.1, s.2.map rowText)))) = some d ∧
      (∀ k : Str, k ∈ d.map Prod.fst ↔ ∃ n ∈ withEol titles ++ "runno".toList :: first.1.keys, k = n.map Char.toLower) ∧
      (∀ i, i < titles.length → d.lookup (((withEol titles).getD i []).map Char.toLower) =
        some ((first :: steps).flatMap (fun s => s.2.map (fun r => conv ((withEol r).getD i []))))) ∧
      (∀ j, j < first.1.keys.length → d.lookup ((first.1.keys.getD j []).map Char.toLower) =
        some ((first :: steps).flatMap (fun s => s.2.map (fun _ => conv (s.1.values.getD j []))))) ∧
      d.lookup "runno".toList = some ((first :: steps).flatMap (fun s => s.2.map (fun _ => raw s.1.run))) := by
  have hnd2 : ("runno".toList :: first.1.keys).Nodup := by
    have := (List.nodup_append.1 (List.Nodup.of_map _ hnd)).2.1
    exact this
  obtain ⟨d, hk, hc, hr⟩ := read_steps conv raw (withEol titles) (first.1, first.2.map withEol) (steps.map (fun s => (s.1, s.2.map withEol))) hnd2 (by
    intro s hs
    obtain ⟨s', hs', e1, e2⟩ : ∃ s' ∈ first :: steps, s'.1 = s.1 ∧ s'.2.map withEol = s.2 := by
      rcases List.mem_cons.1 hs with rfl | hs
      · exact ⟨first, by simp, rfl, rfl⟩
      · obtain ⟨s', hs', rfl⟩ := List.mem_map.1 hs
        exact ⟨s', by simp [hs'], rfl, rfl⟩
    obtain ⟨_, _, h3, h4⟩ := hok s' hs'
    rw [e1] at h3
    refine ⟨h3, fun r hr => ?_⟩
    rw [← e2] at hr
    obtain ⟨r', hr', rfl⟩ := List.mem_map.1 hr
    rw [withEol_length, withEol_length]
    exact (h4 r' hr').2)
  have hall : (first.1, first.2.map withEol) :: steps.map (fun s => (s.1, s.2.map withEol)) = (first :: steps).map (fun s => (s.1, s.2.map withEol)) := rfl
  rw [hall] at hc hr
  -- one entry per row
  have hone : ∀ s ∈ first :: steps, ∀ r ∈ s.2, ∀ e : Str × V, e ∈ lowKeys (stepEntries conv raw s.1) ++ ((withEol titles).map lower).zip ((withEol r).map conv) →
      ((lowKeys (stepEntries conv raw s.1) ++ ((withEol titles).map lower).zip ((withEol r).map conv)).filter (fun x => x.1 = e.1)).map Prod.snd = [e.2] := by
    intro s hs r hr e he
    obtain ⟨_, _, h3, h4⟩ := hok s hs
    apply filter_one _ _ e he
    have hz : (((withEol titles).map lower).zip ((withEol r).map conv)).map Prod.fst = (withEol titles).map lower := by
      apply List.map_fst_zip
      simp [withEol_length, (h4 r hr).2]
    have hs2 : (lowKeys (stepEntries conv raw s.1)).map Prod.fst = ("runno".toList :: first.1.keys).map lower := by
      rw [← h3]; simp [lowKeys, stepEntries, Head.keys, Function.comp_def]
    rw [List.map_append, hz, hs2]
    rw [List.map_append] at hnd
    exact List.nodup_append_comm.2 hnd
  have hcol : ∀ (k : Str) (f : Head × List (List Str) → List Str → V), k ∈ d.map Prod.fst →
      (∀ s ∈ first :: steps, ∀ r ∈ s.2, (k, f s r) ∈ lowKeys (stepEntries conv raw s.1) ++ ((withEol titles).map lower).zip ((withEol r).map conv)) →
      d.lookup k = some ((first :: steps).flatMap (fun s => s.2.map (fun r => f s r))) := by
    intro k f hkd hf
    have hcd := hc k
    have hex : ∃ c, d.lookup k = some c := by
      cases hl : d.lookup k with
      | some c => exact ⟨c, rfl⟩
      | none =>
        exfalso
        obtain ⟨e, he, rfl⟩ := List.mem_map.1 hkd
        have := List.lookup_eq_none_iff.1 hl e he
        simp at this
    obtain ⟨c, hl⟩ := hex
    rw [hl]
    unfold column at hcd
    rw [hl, Option.getD_some] at hcd
    rw [hcd, List.flatMap_map]
    congr 1
    have hgo : ∀ l : List (Head × List (List Str)), (∀ s ∈ l, s ∈ first :: steps) →
        l.flatMap (fun s => (s.2.map withEol).flatMap (fun r => ((lowKeys (stepEntries conv raw s.1) ++ ((withEol titles).map lower).zip (r.map conv)).filter (fun e => e.1 = k)).map Prod.snd)) =
        l.flatMap (fun s => s.2.map (fun r => f s r)) := by
      intro l
      induction l with
      | nil => intro _; rfl
      | cons s l ih =>
        intro h
        rw [List.flatMap_cons, List.flatMap_cons, ih (fun s hs => h s (by simp [hs]))]
        congr 1
        rw [List.flatMap_map]
        have hs := h s (by simp)
        have : ∀ rows : List (List Str), (∀ r ∈ rows, r ∈ s.2) →
            rows.flatMap (fun r => ((lowKeys (stepEntries conv raw s.1) ++ ((withEol titles).map lower).zip ((withEol r).map conv)).filter (fun e => e.1 = k)).map Prod.snd) = rows.map (fun r => f s r) := by
          intro rows
          induction rows with
          | nil => intro _; rfl
          | cons r rows ihr =>
            intro hr
            rw [List.flatMap_cons, hone s hs r (hr r (by simp)) (k, f s r) (hf s hs r (hr r (by simp))), ihr (fun r h => hr r (by simp [h]))]
            rfl
        exact this s.2 (fun r h => h)
    exact hgo _ (fun s h => h)
  refine ⟨d, ?_, ?_, ?_, ?_, ?_⟩
  · unfold readExportText
    have hf : (first :: steps).map (fun s => (s.1, s.2.map rowText)) = (first :: steps).map (fun s => (s.1, s.2.map rowText)) := rfl
    rw [lines_of_file (w := w) (rowText titles) (row_closed titles (fun c hc => (ht.clean c hc).2)) _ (by
      intro s hs
      obtain ⟨s', hs', rfl⟩ := List.mem_map.1 hs
      refine ⟨(hok s' hs').1, fun r hr => ?_⟩
      obtain ⟨r', hr', rfl⟩ := List.mem_map.1 hr
      exact row_ok r' ((hok s' hs').2.2.2 r' hr').1)]
    rw [List.tail_cons, List.headD_cons, List.flatMap_map, mapM_toE w (first :: steps) (fun s hs => ⟨(hok s hs).1, (hok s hs).2.1, fun r hr => ((hok s hs).2.2.2 r hr).1⟩)]
    simp only
    rw [split_row titles ht.some (fun c hc => (ht.clean c hc).1)]
    rw [List.flatMap_map] at hr
    rw [show ∀ l : List ELine, (l.map some).filterMap id = l from fun l => by simp]
    exact hr
  · intro k
    rw [hk]
    constructor
    · rintro (h | h)
      · obtain ⟨n, hn, rfl⟩ := List.mem_map.1 h
        exact ⟨n, by simp [hn], rfl⟩
      · obtain ⟨n, hn, rfl⟩ := List.mem_map.1 h
        exact ⟨n, List.mem_append_right _ hn, rfl⟩
    · rintro ⟨n, hn, rfl⟩
      rcases List.mem_append.1 hn with h | h
      · exact .inl (List.mem_map_of_mem h)
      · exact .inr (List.mem_map_of_mem h)
  · intro i hi
    have hi2 : i < (withEol titles).length := by rw [withEol_length]; exact hi
    apply hcol _ (fun s r => conv ((withEol r).getD i []))
    · rw [hk]
      left
      apply List.mem_map_of_mem
      rw [List.getD_eq_getElem _ _ hi2]
      exact List.getElem_mem hi2
    · intro s hs r hr
      apply List.mem_append_right
      have hi3 : i < (withEol r).length := by rw [withEol_length, ((hok s hs).2.2.2 r hr).2]; exact hi
      rw [List.getD_eq_getElem _ _ hi2, List.getD_eq_getElem _ _ hi3, List.mem_iff_getElem]
      refine ⟨i, by simp [hi2, hi3], by simp [lower]⟩
  · intro j hj
    apply hcol _ (fun s r => conv (s.1.values.getD j []))
    · rw [hk]
      right
      rw [List.map_cons]
      apply List.mem_cons_of_mem
      apply List.mem_map_of_mem
      rw [List.getD_eq_getElem _ _ hj]
      exact List.getElem_mem hj
    · intro s hs r hr
      apply List.mem_append_left
      have e := (hok s hs).2.2.1
      rw [← e] at hj ⊢
      have hj2 : j < s.1.params.length := by simpa [Head.keys] using hj
      rw [List.getD_eq_getElem _ _ hj, List.getD_eq_getElem _ _ (by simpa [Head.values] using hj2)]
      unfold lowKeys stepEntries
      rw [List.map_cons]
      apply List.mem_cons_of_mem
      rw [List.map_map, List.mem_map]
      exact ⟨s.1.params[j], List.getElem_mem hj2, by simp [Head.keys, Head.values, lower]⟩
  · apply hcol "runno".toList (fun s r => raw s.1.run)
    · rw [hk]
      right
      rw [List.map_cons, lower_runno]
      simp
    · intro s hs r hr
      apply List.mem_append_left
      unfold lowKeys stepEntries
      rw [List.map_cons, lower_runno]
      exact List.mem_cons_self

/-- Two texts cut at their first `q`. -/
theorem cut_first (q : Char) (a b r r' : Str) (ha : q ∉ a) (hb : q ∉ b) (h : a ++ q :: r = b ++ q :: r') : a = b ∧ r = r' := by
  induction a generalizing b with
  | nil =>
    cases b with
    | nil => simpa using h
    | cons y b => simp at h; simp [h.1] at hb
  | cons x a ih =>
    cases b with
    | nil => simp at h; simp [h.1] at ha
    | cons y b =>
      simp only [List.cons_append, List.cons.injEq] at h
      simp only [List.mem_cons, not_or] at ha hb
      obtain ⟨h1, h2⟩ := ih b ha.2 hb.2 h.2
      exact ⟨by rw [h.1, h1], h2⟩

/-- C64 (finding): step headers with "(Step: n/m)" are recognised by reformat_LTSpice_export but not by LTSpiceExport, which skips them. -/
theorem C64_step_word_skipped (w : WordClass) (h : Head) (ok : h.Ok w.word) (hw : h.word = "Step".toList) : toE w h.text = some none := by
  unfold toE
  rw [if_pos (isStep_head h)]
  have : exec (runRe w) h.text = none := by
    cases he : exec (runRe w) h.text with
    | none => rfl
    | some x =>
      exfalso
      obtain ⟨t, ht⟩ := (exec_iff _ _).1 (by rw [he]; rfl)
      obtain ⟨u, hu, h1⟩ := run_lits _ _ _ _ ht
      have hrest : u.rest = h.params.flatMap paramText ++ '(' :: (h.word ++ ": ".toList ++ h.run ++ '/' :: (h.total ++ ")\n".toList)) := by
        have := hu.text
        unfold Head.text at this
        rw [List.append_assoc] at this
        exact (List.append_cancel_left this).symm
      cases h1 with
      | @seq _ _ _ v _ h1 h2 =>
      cases h1 with
      | @grp _ _ _ v' h1 =>
      obtain ⟨p, hp, hpc⟩ := plus_text h1
      cases h2 with
      | @seq _ _ _ v2 _ h2 h3 =>
      obtain ⟨q, hq, hqc⟩ := plus_text h2
      cases h3 with
      | @seq _ _ _ v3 _ h3 h4 =>
      unfold lit at h3
      cases h3 with
      | @cls _ _ d r' hr hd =>
      have hd : d = '(' := by simpa using hd
      subst hd
      have e1 : h.params.flatMap paramText ++ '(' :: (h.word ++ ": ".toList ++ h.run ++ '/' :: (h.total ++ ")\n".toList)) = (p ++ q) ++ '(' :: r' := by
        rw [← hrest, hp.text]
        have : v'.rest = q ++ v2.rest := hq.text
        rw [this, hr, List.append_assoc]
      have hn : ∀ c, stepClass w c = true → c ≠ '(' := by
        rintro c hc rfl
        rw [open_not_class] at hc; cases hc
      obtain ⟨_, e2⟩ := cut_first '(' _ _ _ _ (fun hc => hn _ (params_class h ok _ hc) rfl) (by
        intro hc
        rcases List.mem_append.1 hc with hc | hc
        · exact hn _ (hpc _ hc) rfl
        · have := hqc _ hc; simp at this) e1
      cases h4 with
      | @seq _ _ _ v4 _ h4 h5 =>
      obtain ⟨z, hz, _⟩ := run_lits _ _ _ _ h4
      have := hz.text
      rw [show (v2.next r').rest = r' from rfl, ← e2, hw] at this
      simp at this
  rw [this]

/-! Concrete cases (ASCII letters). -/

def sampleHead : Head := ⟨[("Ton".toList, "400m".toList, 1), ("R1".toList, "1e-3".toList, 2)], "Run".toList, "2".toList, "2".toList⟩

example : sampleHead.text = "Step Information: Ton=400m R1=1e-3  (Run: 2/2)\n".toList := by decide +kernel

theorem sample_ok : sampleHead.Ok Props.CompLine.ascii.word where
  some := by decide
  chars := by
    intro p hp c hc
    have key : ∀ p ∈ sampleHead.params, ∀ c ∈ p.1 ++ p.2.1, Props.CompLine.ascii.word c = true ∨ c = '.' ∨ c = '-' := by decide +kernel
    exact key p hp c (List.mem_append.2 hc)
  blanks := by decide
  word := .inl rfl
  run := by decide
  total := by decide

example : RowOk "0\t1\n".toList := ⟨⟨"0\t1".toList, rfl, by decide⟩, by decide⟩
example : CellsOk ["time".toList, "V(out)".toList] := ⟨by decide, by decide, by decide⟩

/-- C48 (finding): LTspice writes `1e+06`; the second step is not recognised and its rows carry the values of the first. -/
theorem C48_plus_sign_mistags :
    reformatText Props.CompLine.ascii "time\tv\nStep Information: R=1e-3  (Run: 1/2)\n0\t1\nStep Information: R=1e+06  (Run: 2/2)\n0\t2\n".toList =
      some "Run\tR\ttime\tv\n1\t1e-3\t0\t1\n1\t1e-3\t0\t2\n".toList := by decide +kernel

/-- C48 (finding): a step header whose parameter has no `=` raises an IndexError. -/
theorem C48_no_equal_raises : reformatText Props.CompLine.ascii "time\tv\nStep Information: 2N3904  (Run: 1/2)\n0\t1\n".toList = none := by decide +kernel

/-- C64 (finding): the name of the last column ends with the line end, and so do its cells. -/
theorem C64_last_title_keeps_eol :
    readExportText Props.CompLine.ascii (fun s => s) (fun s => s) "time\tV(out)\nStep Information: R=1  (Run: 1/1)\n0\t5\n".toList =
      some [("time".toList, ["0".toList]), ("v(out)\n".toList, ["5\n".toList]), ("runno".toList, ["1".toList]), ("r".toList, ["1".toList])] := by decide +kernel

/-- C64 (finding): a file whose step headers say "Step:" cannot be read. -/
theorem C64_step_word_raises :
    readExportText Props.CompLine.ascii (fun s => s) (fun s => s) "time\tV(out)\nStep Information: R=1  (Step: 1/1)\n0\t5\n".toList = none := by decide +kernel

end Props.Export
