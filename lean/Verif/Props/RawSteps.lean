import Verif.Model.RawSteps
import Verif.Spec.RawSteps
import Verif.Props.RawRead
import Verif.Props.RawClasses
import Verif.Props.Export
import Verif.Props.SchComp
import Mathlib.Tactic.ByContra

/-! C72: the steps of a RAW file and the export of its traces. -/
namespace Props.RawSteps
open Model.PyStr
open Model.RawFile hiding Str
open Model.RawSteps
open Model.RawClasses (Axis Trace setSteps slice)
open Model.Export (fileLines lits group)
open Props.RawRead (Reached traceSamples)
open Lemmas.Regex Lemmas.CompLine
open Spec.RawSteps

/-! ### Reading the log -/

theorem splitOn_clean (sep : Char) (w : Str) (h : sep ∉ w) : splitOn sep w = [w] := by
  induction w with
  | nil => rfl
  | cons c w ih =>
    simp only [List.mem_cons, not_or] at h
    unfold splitOn
    rw [if_neg (fun e : c = sep => h.1 e.symm), ih h.2]

theorem splitOn_cons (sep : Char) (w r : Str) (h : sep ∉ w) : splitOn sep (w ++ sep :: r) = w :: splitOn sep r := by
  induction w with
  | nil => simp [splitOn]
  | cons c w ih =>
    simp only [List.mem_cons, not_or] at h
    rw [List.cons_append]
    conv_lhs => unfold splitOn
    rw [if_neg (fun e : c = sep => h.1 e.symm), ih h.2]

theorem splitOn_words (sep : Char) (ws : List Str) (hne : ws ≠ []) (h : ∀ w ∈ ws, sep ∉ w) : splitOn sep (List.intercalate [sep] ws) = ws := by
  induction ws with
  | nil => exact absurd rfl hne
  | cons w ws ih =>
    cases ws with
    | nil => simp [List.intercalate]; exact splitOn_clean sep w (h w (by simp))
    | cons w2 ws =>
      have e : List.intercalate [sep] (w :: w2 :: ws) = w ++ sep :: List.intercalate [sep] (w2 :: ws) := by simp [List.intercalate]
      rw [e, splitOn_cons sep w _ (h w (by simp)), ih (by simp) (fun x hx => h x (by simp only [List.mem_cons] at hx ⊢; right; exact hx))]

theorem keyValue_pair (k v : Str) (hk : '=' ∉ k) (hv : '=' ∉ v) : keyValue (k ++ '=' :: v) = .ok (k, v) := by
  unfold keyValue
  rw [splitOn_cons '=' k v hk, splitOn_clean '=' v hv]

theorem put_new {X : Type} (d : List (Str × X)) (k : Str) (v : X) (h : k ∉ d.map Prod.fst) : put d k v = d ++ [(k, v)] := by
  induction d with
  | nil => rfl
  | cons e d ih =>
    obtain ⟨k', v'⟩ := e
    simp only [List.map_cons, List.mem_cons, not_or] at h
    unfold put
    rw [if_neg (fun e : k' = k => h.1 e.symm), ih h.2]
    rfl

variable {W V : Type} [DecidableEq V] [DecidableEq W]

/-- The dictionary a step must become. -/
def dict (conv : Str → W) (ps : Params) : Step W := ps.map (fun p => (p.1, conv p.2))

theorem params_words (ps : Params) (h : ParamsOk ps) : splitOn ' ' (paramText ps) = ps.map (fun p => p.1 ++ '=' :: p.2) := by
  unfold paramText
  refine splitOn_words ' ' _ (by simpa using h.some) ?_
  intro w hw
  obtain ⟨p, hp, rfl⟩ := List.mem_map.mp hw
  intro hc
  rcases List.mem_append.mp hc with hc | hc
  · exact (h.chars p hp _ (.inl hc)).1 rfl
  · rcases List.mem_cons.mp hc with hc | hc
    · exact absurd hc (by decide)
    · exact (h.chars p hp _ (.inr hc)).1 rfl

theorem qTokens_params (conv : Str → W) : ∀ (ps : Params) (d : Step W), (∀ p ∈ ps, '=' ∉ p.1 ∧ '=' ∉ p.2) →
    ((d.map Prod.fst) ++ ps.map Prod.fst).Nodup → qTokens conv (ps.map (fun p => p.1 ++ '=' :: p.2)) d = .ok (d ++ dict conv ps) := by
  intro ps
  induction ps with
  | nil => intro d _ _; simp [qTokens, dict]
  | cons p ps ih =>
    intro d hc hnd
    rw [List.map_cons]
    unfold qTokens
    rw [keyValue_pair p.1 p.2 (hc p (by simp)).1 (hc p (by simp)).2]
    simp only
    have hp : p.1 ∉ d.map Prod.fst := by
      intro hm
      exact (List.nodup_append.mp hnd).2.2 p.1 hm p.1 (by simp) rfl
    rw [put_new d p.1 (conv p.2) hp, ih _ (fun q hq => hc q (by simp [hq])) (by simpa using hnd)]
    simp [dict]

theorem ltTokens_params (conv : Str → W) : ∀ (ps : Params) (d : Step W), (∀ p ∈ ps, '=' ∉ p.1 ∧ '=' ∉ p.2) →
    ((d.map Prod.fst) ++ ps.map Prod.fst).Nodup → ltTokens conv (ps.map (fun p => p.1 ++ '=' :: p.2)) d = .ok (d ++ dict conv ps) := by
  intro ps
  induction ps with
  | nil => intro d _ _; simp [ltTokens, dict]
  | cons p ps ih =>
    intro d hc hnd
    rw [List.map_cons]
    unfold ltTokens
    rw [if_pos (by simp), keyValue_pair p.1 p.2 (hc p (by simp)).1 (hc p (by simp)).2]
    simp only
    have hp : p.1 ∉ d.map Prod.fst := by
      intro hm
      exact (List.nodup_append.mp hnd).2.2 p.1 hm p.1 (by simp) rfl
    rw [put_new d p.1 (conv p.2) hp, ih _ (fun q hq => hc q (by simp [hq])) (by simpa using hnd)]
    simp [dict]

theorem params_eq (ps : Params) (h : ParamsOk ps) : ∀ p ∈ ps, '=' ∉ p.1 ∧ '=' ∉ p.2 := fun p hp =>
  ⟨fun hc => (h.chars p hp _ (.inl hc)).2.1 rfl, fun hc => (h.chars p hp _ (.inr hc)).2.1 rfl⟩

theorem mem_intercalate {c sep : Char} : ∀ (ws : List Str), c ∈ List.intercalate [sep] ws → c = sep ∨ ∃ w ∈ ws, c ∈ w := by
  intro ws
  induction ws with
  | nil => intro h; simp [List.intercalate] at h
  | cons w ws ih =>
    cases ws with
    | nil => intro h; right; exact ⟨w, by simp, by simpa [List.intercalate] using h⟩
    | cons w2 ws =>
      intro h
      have e : List.intercalate [sep] (w :: w2 :: ws) = w ++ sep :: List.intercalate [sep] (w2 :: ws) := by simp [List.intercalate]
      rw [e] at h
      rcases List.mem_append.mp h with h | h
      · right; exact ⟨w, by simp, h⟩
      · rcases List.mem_cons.mp h with h | h
        · left; exact h
        · rcases ih h with h | ⟨x, hx, h⟩
          · left; exact h
          · right; exact ⟨x, by simp only [List.mem_cons] at hx ⊢; right; exact hx, h⟩

theorem params_no_eol (ps : Params) (h : ParamsOk ps) : ∀ c ∈ paramText ps, c ≠ '\n' ∧ c ≠ '\r' := by
  intro c hc
  rcases mem_intercalate _ hc with rfl | ⟨w, hw, hc⟩
  · decide
  · obtain ⟨p, hp, rfl⟩ := List.mem_map.mp hw
    rcases List.mem_append.mp hc with hc | hc
    · exact (h.chars p hp _ (.inl hc)).2.2
    · rcases List.mem_cons.mp hc with rfl | hc
      · decide
      · exact (h.chars p hp _ (.inr hc)).2.2

theorem logLines (ls : List Str) (h : ∀ l ∈ ls, '\n' ∉ l) (tail : Str) : fileLines (logText ls ++ tail) = ls.map (fun l => l ++ ['\n']) ++ fileLines tail := by
  induction ls with
  | nil => rfl
  | cons l ls ih =>
    have e : logText (l :: ls) ++ tail = l ++ '\n' :: (logText ls ++ tail) := by simp [logText]
    rw [e, Props.Export.fileLines_line l (h l (by simp)), ih (fun x hx => h x (by simp [hx]))]
    rfl

theorem lt_no_eol (l : LtLine) (h : l.Ok) : '\n' ∉ l.text := by
  cases l with
  | step ps =>
    intro hc
    simp only [LtLine.text] at hc
    rcases List.mem_append.mp hc with hc | hc
    · exact absurd hc (by decide)
    · exact (params_no_eol ps h _ hc).1 rfl
  | other t => exact h.1

/-- The steps after those in `acc`. -/
def gathered (acc : Option (List (Step W))) (l : List (Step W)) : Option (List (Step W)) := l.foldl push acc

theorem gathered_none (l : List (Step W)) : gathered none l = if l = [] then none else some l := by
  have h : ∀ (l a : List (Step W)), l.foldl push (some a) = some (a ++ l) := by
    intro l
    induction l with
    | nil => intro a; simp
    | cons d l ih => intro a; simp only [List.foldl_cons, push]; rw [ih]; simp
  cases l with
  | nil => rfl
  | cons d l => simp only [gathered, List.foldl_cons, push]; rw [h]; simp

theorem ltLoop_lines (conv : Str → W) : ∀ (ls : List LtLine) (acc : Option (List (Step W))), (∀ l ∈ ls, l.Ok) →
    ltLoop conv (ls.map (fun l => l.text ++ ['\n'])) acc = .ok (gathered acc ((ltSteps ls).map (dict conv))) := by
  intro ls
  induction ls with
  | nil => intro acc _; rfl
  | cons l ls ih =>
    intro acc h
    rw [List.map_cons]
    unfold ltLoop
    cases l with
    | step ps =>
      have ok : ParamsOk ps := h (.step ps) (by simp)
      have e1 : ".step".toList.isPrefixOf ((LtLine.step ps).text ++ ['\n']) = true := by
        rw [List.isPrefixOf_iff_prefix]
        exact ⟨' ' :: (paramText ps ++ ['\n']), by simp [LtLine.text]⟩
      have e2 : (List.drop 6 ((LtLine.step ps).text ++ ['\n'])).dropLast = paramText ps := by
        simp only [LtLine.text, List.append_assoc]
        rw [show (6 : Nat) = ".step ".toList.length from rfl, List.drop_left, List.dropLast_concat]
      rw [if_pos e1, e2, params_words ps ok, ltTokens_params conv ps [] (params_eq ps ok) (by simpa using ok.distinct)]
      simp only [List.nil_append]
      rw [ih _ (fun x hx => h x (by simp [hx]))]
      rfl
    | other t =>
      have ok : '\n' ∉ t ∧ ¬ ".step".toList <+: t := h (.other t) (by simp)
      have e1 : ¬ ".step".toList.isPrefixOf ((LtLine.other t).text ++ ['\n']) = true := by
        rw [List.isPrefixOf_iff_prefix]
        simp only [LtLine.text]
        intro hp
        apply ok.2
        rcases List.prefix_concat_iff.mp hp with e | hp
        · have := congrArg List.getLast? e
          simp at this
        · exact hp
      rw [if_neg e1, ih _ (fun x hx => h x (by simp [hx]))]
      rfl

/-- C72: the steps of an LTspice file are those of the `.step` lines of its log, in their order, with the values written there. -/
theorem C72_ltspice_log (conv : Str → W) (num : Nat → W) (p : Plot) (hp : p.steppedFlag = true) (command : Str)
    (hc : contains "ltspice".toList (lower command) = true) (ls : List LtLine) (h : ∀ l ∈ ls, l.Ok) :
    stepsOf conv num p (some command) ".raw".toList (some (logText (ls.map LtLine.text))) =
      .ok (if ltSteps ls = [] then none else some ((ltSteps ls).map (fun ps => ps.map (fun q => (q.1, conv q.2))))) := by
  have e : loadSteps conv (some command) ".raw".toList (some (logText (ls.map LtLine.text))) =
      .ok (if ltSteps ls = [] then none else some ((ltSteps ls).map (fun ps => ps.map (fun q => (q.1, conv q.2))))) := by
    unfold loadSteps
    simp only
    rw [if_pos hc, if_neg (by simp)]
    have hl := logLines (ls.map LtLine.text) (by intro l hl; obtain ⟨x, hx, rfl⟩ := List.mem_map.mp hl; exact lt_no_eol x (h x hx)) []
    rw [List.append_nil] at hl
    rw [hl, show fileLines [] = [] from rfl, List.append_nil, List.map_map]
    have := ltLoop_lines conv ls none h
    rw [gathered_none] at this
    simp only [List.map_eq_nil_iff] at this
    exact this
  unfold stepsOf
  rw [if_pos hp, e]

theorem group_number_params (n ps : Str) (a b : Nat) (x : Model.Regex.St) (hx : x.caps = [(.params, a, ps), (.number, b, n)]) :
    group x .params = ps := by
  unfold group Model.Regex.St.get
  rw [hx]
  rfl

/-- A step line of a QSPICE log is recognised and its parameters are what follows `.step `. -/
theorem exec_stepQ (n t b ps eol : Str) (hn : n ≠ []) (hnd : ∀ c ∈ n, c.isDigit = true) (ht : t ≠ []) (htd : ∀ c ∈ t, c.isDigit = true)
    (hb : b ≠ []) (hbs : ∀ c ∈ b, c = ' ' ∨ c = '\t') (hps : ∀ c ∈ ps, c ≠ '\n') (he : eol = [] ∨ eol = ['\n']) :
    ∃ x, Model.Regex.exec stepQ (n ++ (" of ".toList ++ (t ++ (" steps:".toList ++ (b ++ (".step ".toList ++ (ps ++ eol))))))) = some x ∧
      group x .params = ps := by
  let r6 : Str := ps ++ eol
  let r5 : Str := ".step ".toList ++ r6
  let r4 : Str := b ++ r5
  let r3 : Str := " steps:".toList ++ r4
  let r2 : Str := t ++ r3
  let r1 : Str := " of ".toList ++ r2
  let s0 : Model.Regex.St := ⟨0, n ++ r1, []⟩
  let s1 := Model.Regex.St.close .number s0 (adv s0 n r1)
  let s2 := adv s1 " of ".toList r2
  let s3 := adv s2 t r3
  let s4 := adv s3 " steps:".toList r4
  let s5 := adv s4 b r5
  let s6 := adv s5 ".step ".toList r6
  let s7 := Model.Regex.St.close .params s6 (adv s6 ps eol)
  refine ⟨s7, ?_, ?_⟩
  · unfold Model.Regex.exec stepQ
    rw [go_seq, go_grp]
    refine go_plus _ _ s0 n r1 hn rfl hnd (by intro c hc; simp [r1] at hc; subst hc; decide) _ ?_
    show Model.Regex.go _ _ s1 = _
    rw [Props.Export.go_lits _ _ _ s1 r2 rfl, go_seq]
    refine go_plus _ _ s2 t r3 ht rfl htd (by intro c hc; simp [r3] at hc; subst hc; decide) _ ?_
    rw [Props.Export.go_lits _ _ _ s3 r4 rfl, go_seq]
    refine go_plus _ _ s4 b r5 hb rfl (by intro c hc; rcases hbs c hc with rfl | rfl <;> decide) (by intro c hc; simp [r5] at hc; subst hc; decide) _ ?_
    rw [Props.Export.go_lits _ _ _ s5 r6 rfl, go_seq, go_grp]
    refine go_star _ _ s6 ps eol rfl (by intro c hc; simpa using hps c hc) ?_ _ ?_
    · intro c hc
      rcases he with rfl | rfl
      · simp at hc
      · simp at hc; subst hc; decide
    · show (if s7.rest = [] ∨ s7.rest = ['\n'] then some s7 else none) = some s7
      exact if_pos (show s7.rest = [] ∨ s7.rest = ['\n'] from he)
  · apply group_number_params n ps s6.pos 0
    show (Model.Regex.G.params, s6.pos, s6.rest.take ((adv s6 ps eol).pos - s6.pos)) :: s6.caps = _
    have e1 : s6.rest.take ((adv s6 ps eol).pos - s6.pos) = ps := by
      simp [adv, s6, r6]
    have e2 : s6.caps = [(.number, 0, n)] := by
      show [(Model.Regex.G.number, s0.pos, s0.rest.take ((adv s0 n r1).pos - s0.pos))] = _
      simp [adv, s0]
    rw [e1, e2]

theorem stripEol_clean (s : Str) (h : ∀ c ∈ s, c ≠ '\n' ∧ c ≠ '\r') : stripEol s = s := by
  have hd : ∀ t : Str, (∀ c ∈ t, c ≠ '\n' ∧ c ≠ '\r') → t.dropWhile (fun c => c = '\r' || c = '\n') = t := by
    intro t ht
    cases t with
    | nil => rfl
    | cons c t =>
      have := ht c (by simp)
      rw [List.dropWhile_cons_of_neg]
      simp [this.1, this.2]
  unfold stripEol
  rw [hd s h, hd s.reverse (by simpa using h), List.reverse_reverse]

/-- A line without `.step ` is not a step line. -/
theorem exec_other (l : Str) (h : ¬ ".step ".toList <:+: l) : Model.Regex.exec stepQ l = none := by
  unfold Model.Regex.exec
  apply go_none
  intro t ht
  exfalso
  unfold stepQ at ht
  cases ht with
  | seq h1 h2 =>
    obtain ⟨a1, b1⟩ := run_between h1
    obtain ⟨u2, b2, h2⟩ := Props.Export.run_lits _ _ _ _ h2
    cases h2 with
    | seq h3 h4 =>
      obtain ⟨a3, b3⟩ := run_between h3
      obtain ⟨u4, b4, h4⟩ := Props.Export.run_lits _ _ _ _ h4
      cases h4 with
      | seq h5 h6 =>
        obtain ⟨a5, b5⟩ := run_between h5
        obtain ⟨u6, b6, _⟩ := Props.Export.run_lits _ _ _ _ h6
        have hb := (((b1.trans b2).trans b3).trans b4).trans b5
        have e : l = a1 ++ " of ".toList ++ a3 ++ " steps:".toList ++ a5 ++ (".step ".toList ++ u6.rest) := by
          rw [← b6.text]; exact hb.text
        exact h ⟨_, _, by rw [e, List.append_assoc]⟩

theorem q_no_eol (l : QLine) (h : l.Ok) : '\n' ∉ l.text := by
  cases l with
  | step n t b ps =>
    obtain ⟨_, h1, _, h2, _, h3, h4⟩ := h
    intro hc
    simp only [QLine.text, List.mem_append] at hc
    rcases hc with (((((hc | hc) | hc) | hc) | hc) | hc) | hc
    · exact absurd (h1 _ hc) (by decide)
    · exact absurd hc (by decide)
    · exact absurd (h2 _ hc) (by decide)
    · exact absurd hc (by decide)
    · rcases h3 _ hc with e | e <;> exact absurd e (by decide)
    · exact absurd hc (by decide)
    · exact (params_no_eol ps h4 _ hc).1 rfl
  | other t => exact h.1

theorem qLoop_lines (conv : Str → W) : ∀ (ls : List QLine) (acc : Option (List (Step W))), (∀ l ∈ ls, l.Ok) →
    qLoop conv (ls.map (fun l => l.text ++ ['\n'])) acc = .ok (gathered acc ((qSteps ls).map (dict conv))) := by
  intro ls
  induction ls with
  | nil => intro acc _; rfl
  | cons l ls ih =>
    intro acc h
    rw [List.map_cons]
    unfold qLoop
    cases l with
    | step n t b ps =>
      have ok : (QLine.step n t b ps).Ok := h (.step n t b ps) (by simp)
      obtain ⟨g1, g2, g3, g4, g5, g6, ok⟩ := ok
      obtain ⟨x, hx, hg⟩ := exec_stepQ n t b (paramText ps) ['\n'] g1 g2 g3 g4 g5 g6 (fun c hc => (params_no_eol ps ok c hc).1) (.inr rfl)
      have e : (QLine.step n t b ps).text ++ ['\n'] =
          n ++ (" of ".toList ++ (t ++ (" steps:".toList ++ (b ++ (".step ".toList ++ (paramText ps ++ ['\n'])))))) := by
        simp only [QLine.text, List.append_assoc]
      rw [e, hx]
      simp only
      rw [hg, stripEol_clean _ (params_no_eol ps ok), params_words ps ok, qTokens_params conv ps [] (params_eq ps ok) (by simpa using ok.distinct)]
      simp only [List.nil_append]
      rw [ih _ (fun x hx => h x (by simp [hx]))]
      rfl
    | other t =>
      have ok : '\n' ∉ t ∧ ¬ ".step ".toList <:+: t := h (.other t) (by simp)
      have e : Model.Regex.exec stepQ ((QLine.other t).text ++ ['\n']) = none := by
        apply exec_other
        simp only [QLine.text]
        rintro ⟨a, b, e⟩
        apply ok.2
        rcases List.eq_nil_or_concat b with rfl | ⟨b', c, rfl⟩
        · have := congrArg List.getLast? e
          rw [List.append_nil, List.getLast?_concat, List.getLast?_append] at this
          rw [show ".step ".toList.getLast? = some ' ' from rfl] at this
          simp at this
        · refine ⟨a, b', ?_⟩
          rw [List.concat_eq_append, ← List.append_assoc] at e
          exact (List.append_inj' e rfl).1
      rw [e]
      simp only
      rw [ih _ (fun x hx => h x (by simp [hx]))]
      rfl

/-- C72: the steps of a QSPICE file are those of the `n of m steps: .step …` lines of its log, in their order, with the values written there. -/
theorem C72_qspice_log (conv : Str → W) (num : Nat → W) (p : Plot) (hp : p.steppedFlag = true) (command : Str)
    (hc : contains "ltspice".toList (lower command) = false) (hq : contains "qspice".toList (lower command) = true) (ls : List QLine) (h : ∀ l ∈ ls, l.Ok) :
    stepsOf conv num p (some command) ".qraw".toList (some (logText (ls.map QLine.text))) =
      .ok (if qSteps ls = [] then none else some ((qSteps ls).map (fun ps => ps.map (fun q => (q.1, conv q.2))))) := by
  have e : loadSteps conv (some command) ".qraw".toList (some (logText (ls.map QLine.text))) =
      .ok (if qSteps ls = [] then none else some ((qSteps ls).map (fun ps => ps.map (fun q => (q.1, conv q.2))))) := by
    unfold loadSteps
    simp only
    rw [if_neg (by rw [hc]; simp), if_pos hq, if_neg (by simp)]
    have hl := logLines (ls.map QLine.text) (by intro l hl; obtain ⟨x, hx, rfl⟩ := List.mem_map.mp hl; exact q_no_eol x (h x hx)) []
    rw [List.append_nil] at hl
    rw [hl, show fileLines [] = [] from rfl, List.append_nil, List.map_map]
    have := qLoop_lines conv ls none h
    rw [gathered_none] at this
    simp only [List.map_eq_nil_iff] at this
    exact this
  unfold stepsOf
  rw [if_pos hp, e]

/-- C72: without a usable log (none, a wrong suffix, another simulator, no Command line) the steps of a file without axis are numbered from
1, one for every point. -/
theorem C72_no_log (conv : Str → W) (num : Nat → W) (p : Plot) (hp : p.steppedFlag = true) (command : Option Str) (suffix : Str) (log : Option Str)
    (h : log = none ∨ command = none ∨ (∃ c, command = some c ∧
      ((contains "ltspice".toList (lower c) = true ∧ suffix ≠ ".raw".toList) ∨
       (contains "ltspice".toList (lower c) = false ∧ contains "qspice".toList (lower c) = true ∧ suffix ≠ ".qraw".toList) ∨
       (contains "ltspice".toList (lower c) = false ∧ contains "qspice".toList (lower c) = false)))) :
    stepsOf conv num p command suffix log =
      .ok (some (if p.hasAxis then [] else (List.range p.nPoints).map (fun i => [("run".toList, num (i + 1))]))) := by
  have e : loadSteps conv command suffix log = .error .spiceRead := by
    unfold loadSteps
    cases command with
    | none => rfl
    | some c =>
      simp only
      rcases h with h | h | ⟨c', hc', h⟩
      · subst h; split_ifs <;> rfl
      · exact absurd h (by simp)
      · injection hc' with hc'; subst hc'
        rcases h with ⟨h1, h2⟩ | ⟨h1, h2, h3⟩ | ⟨h1, h2⟩
        · rw [if_pos h1, if_pos h2]
        · rw [if_neg (by rw [h1]; simp), if_pos h2, if_pos h3]
        · rw [if_neg (by rw [h1]; simp), if_neg (by rw [h2]; simp)]
  unfold stepsOf
  rw [if_pos hp, e]
  simp only
  cases p.hasAxis <;> rfl

/-- C72: get_steps() of a file without steps is step 0; of a file with steps, all of them; with conditions, exactly the numbers of the
steps that have every named parameter with the given value, in ascending order. -/
theorem C72_get_steps (steps : Option (List (Step W))) (kw : List (Str × W)) :
    (steps = none → getSteps steps kw = [0]) ∧
    (∀ l, steps = some l → getSteps steps kw = (List.range l.length).filter (fun i => ∀ kv ∈ kw, (l.getD i []).lookup kv.1 = some kv.2)) := by
  constructor
  · rintro rfl; rfl
  · rintro l rfl
    have hm : ∀ (d : Step W) (kw : List (Str × W)), matches' d kw = true ↔ ∀ kv ∈ kw, d.lookup kv.1 = some kv.2 := by
      intro d kw
      induction kw with
      | nil => simp [matches']
      | cons kv kw ih =>
        obtain ⟨k, v⟩ := kv
        unfold matches'
        cases hl : d.lookup k with
        | none => simp [hl]
        | some x =>
          simp only
          by_cases hv : v = x
          · subst hv; simp [hl, ih]
          · rw [if_pos hv]
            simp only [Bool.false_eq_true, List.mem_cons, forall_eq_or_imp, hl, Option.some.injEq, false_iff, not_and]
            intro e; exact absurd e.symm hv
    have hg : ∀ (l : List (Step W)) (i : Nat), matching kw i l =
        ((List.range l.length).filter (fun j => ∀ kv ∈ kw, (l.getD j []).lookup kv.1 = some kv.2)).map (· + i) := by
      intro l
      induction l with
      | nil => intro i; rfl
      | cons d l ih =>
        intro i
        rw [List.length_cons, List.range_succ_eq_map, List.filter_cons]
        unfold matching
        rw [ih (i + 1), List.filter_map]
        by_cases h : matches' d kw = true
        · have h' := (hm d kw).1 h
          rw [if_pos h, if_pos (by simpa using h')]
          simp only [List.map_cons, List.map_map, Nat.zero_add, List.cons.injEq, true_and]
          have : ((fun x => x + i) ∘ Nat.succ) = fun x => x + (i + 1) := by funext x; simp; omega
          rw [this]
          rfl
        · have h' : ¬ ∀ kv ∈ kw, d.lookup kv.1 = some kv.2 := fun h' => h ((hm d kw).2 h')
          rw [if_neg h, if_neg (by simpa using h')]
          simp only [List.map_map]
          have : ((fun x => x + i) ∘ Nat.succ) = fun x => x + (i + 1) := by funext x; simp; omega
          rw [this]
          rfl
    unfold getSteps
    simp only
    by_cases hk : kw.length > 0
    · rw [if_pos hk, hg l 0]; simp
    · rw [if_neg hk]
      have : kw = [] := by simpa using hk
      subst this
      symm
      rw [List.filter_eq_self]
      intro a _
      simp

/-! ### Traces and export -/

/-- What reading does to the axis, for a file with a complete data section: the first time it is built from its samples, later it stays. -/
theorem read_axis (val : NumType → Word → V) (p : Plot) (n : Option Nat) (s : St) (names : List Str)
    (hnd : (p.info.map Info.name).Nodup) (hlen : p.nPoints * recordSize p.info ≤ p.data.length) (i0 : Info) (is : List Info) (hinfo : p.info = i0 :: is) :
    (p.hasAxis = true ∧ s.axis = none → ∀ e, mkAxis val n i0 (traceSamples p 0) = .error e → readTraceData val p n s names = .error e) ∧
    (p.hasAxis = true ∧ s.axis = none → ∀ ax, mkAxis val n i0 (traceSamples p 0) = .ok ax →
      ∃ s', readTraceData val p n s names = .ok s' ∧ s'.axis = some ax) ∧
    (¬ (p.hasAxis = true ∧ s.axis = none) → ∃ s', readTraceData val p n s names = .ok s' ∧ s'.axis = s.axis) := by
  have hi0 : p.info[0]? = some i0 := by rw [hinfo]; rfl
  have hnd2 := hnd
  rw [hinfo, List.map_cons, List.nodup_cons] at hnd2
  have hr : p.nPoints * recordSize p.info = p.nPoints * i0.num.width + p.nPoints * recordSize is := by
    rw [hinfo]; simp only [recordSize, List.map_cons, List.sum_cons]; ring
  unfold readTraceData
  by_cases hf : p.fast = true
  · rw [if_pos hf, hinfo]
    simp only
    have hsam : ∀ raw, readBytes p.data 0 (p.nPoints * i0.num.width) = .ok raw → fromBuffer i0.num.width p.nPoints raw = traceSamples p 0 := by
      intro raw hraw
      rw [← Props.RawRead.fastWords_traceSamples p hf 0 i0 hi0, Props.RawRead.readBytes_inv _ _ _ _ hraw,
        show p.nPoints * i0.num.width = i0.num.width * p.nPoints by ring, Props.RawRead.fromBuffer_eq]
      simp [Props.RawRead.fastWords]
    have hrb := Props.RawRead.readBytes_ok p.data 0 (p.nPoints * i0.num.width) (by omega)
    by_cases hax : p.hasAxis = true ∧ s.axis.isNone = true
    · have hax' : p.hasAxis = true ∧ s.axis = none := by rw [← Option.isNone_iff_eq_none]; exact hax
      rw [if_pos hax]
      generalize List.take (p.nPoints * i0.num.width) (List.drop 0 p.data) = raw at hrb
      rw [hrb]
      simp only
      rw [hsam raw hrb]
      refine ⟨fun _ e he => by rw [he], fun _ ax he => ?_, fun h => absurd hax' h⟩
      rw [he]
      simp only
      obtain ⟨s', h⟩ := Props.RawRead.fastLoop_ok p names is (0 + p.nPoints * i0.num.width) ⟨some ax, put s.reads i0.name ax⟩ (by omega)
      exact ⟨s', h, (Props.RawRead.fastLoop_spec p names is _ _ _ hnd2.2 h).1⟩
    · have hax' : ¬ (p.hasAxis = true ∧ s.axis = none) := by rw [← Option.isNone_iff_eq_none]; exact hax
      rw [if_neg hax]
      refine ⟨fun h => absurd h hax', fun h => absurd h hax', fun _ => ?_⟩
      obtain ⟨s', h⟩ := Props.RawRead.fastLoop_ok p names (i0 :: is) 0 s (by rw [← hinfo]; omega)
      exact ⟨s', h, (Props.RawRead.fastLoop_spec p names (i0 :: is) _ _ _ (by rw [List.map_cons, List.nodup_cons]; exact hnd2) h).1⟩
  · rw [if_neg hf]
    have hf' : p.fast = false := by simpa using hf
    simp only
    have hcol := fun j (t : Info) (hj : p.info[j]? = some t) => Props.RawRead.column_spec p hf' p.hasAxis s.axis.isSome names hnd j t hj
    rw [Props.RawRead.readBytes_ok _ _ _ (by omega)]
    simp only
    rw [if_pos (by rw [Props.RawRead.dtypes_names]; exact hnd)]
    generalize column (dtypes p.hasAxis s.axis.isSome names true p.info) p.nPoints
      ((p.data.drop 0).take (p.nPoints * recordSize p.info)) = col at hcol
    rw [hinfo]
    simp only [normalLoop, true_and]
    by_cases hax : p.hasAxis = true ∧ s.axis.isNone = true
    · have hax' : p.hasAxis = true ∧ s.axis = none := by rw [← Option.isNone_iff_eq_none]; exact hax
      rw [if_pos hax, hcol 0 i0 hi0]
      refine ⟨fun _ e he => by rw [he], fun _ ax he => ?_, fun h => absurd hax' h⟩
      rw [he]
      simp only
      obtain ⟨s2, e0, e1, _⟩ := Props.RawRead.normalLoop_false val p n names col is ⟨some ax, put s.reads i0.name ax⟩ hnd2.2
      exact ⟨s2, e0, e1⟩
    · have hax' : ¬ (p.hasAxis = true ∧ s.axis = none) := by rw [← Option.isNone_iff_eq_none]; exact hax
      rw [if_neg hax]
      refine ⟨fun h => absurd h hax', fun h => absurd h hax', fun _ => ?_⟩
      split_ifs
      · obtain ⟨s2, e0, e1, _⟩ := Props.RawRead.normalLoop_false val p n names col is
          { s with reads := put s.reads i0.name ⟨false, i0.num, col i0.name, none⟩ } hnd2.2
        exact ⟨s2, e0, e1⟩
      · obtain ⟨s2, e0, e1, _⟩ := Props.RawRead.normalLoop_false val p n names col is s hnd2.2
        exact ⟨s2, e0, e1⟩

/-- The values of the axis. -/
def axisValues (val : NumType → Word → V) (p : Plot) (i0 : Info) : List V := (traceSamples p 0).map (val i0.num)

theorem samples_length (p : Plot) (i : Nat) : (traceSamples p i).length = p.nPoints := by
  simp [traceSamples, Spec.RawLayout.samples]

/-- Building the axis works when the number of steps fits. -/
theorem mkAxis_steps (val : NumType → Word → V) (p : Plot) (n : Option Nat) (i0 : Info) (hp : 0 < p.nPoints)
    (h : ∀ k, n = some k → k = (starts (axisValues val p i0)).length) :
    mkAxis val n i0 (traceSamples p 0) = .ok ⟨true, i0.num, traceSamples p 0, n.map (fun _ => starts (axisValues val p i0))⟩ := by
  have hne : axisValues val p i0 ≠ [] := by
    intro e
    have := congrArg List.length e
    simp [axisValues, samples_length] at this
    omega
  unfold mkAxis
  cases n with
  | none => rfl
  | some k =>
    have hk := h k rfl
    simp only
    have := Props.RawClasses.C23_step_offsets (axisValues val p i0) k hne
    have es : Props.RawClasses.starts (axisValues val p i0) = starts (axisValues val p i0) := rfl
    rw [es, if_neg (by omega), if_neg (by omega)] at this
    unfold axisValues at this
    rw [this]
    rfl

/-- Whenever it was built, the axis is this one. -/
theorem mkAxis_inv (val : NumType → Word → V) (p : Plot) (n : Option Nat) (i0 : Info) (hp : 0 < p.nPoints) (ax : Loaded)
    (h : mkAxis val n i0 (traceSamples p 0) = .ok ax) :
    (∀ k, n = some k → k = (starts (axisValues val p i0)).length) ∧
      ax = ⟨true, i0.num, traceSamples p 0, n.map (fun _ => starts (axisValues val p i0))⟩ := by
  have hne : axisValues val p i0 ≠ [] := by
    intro e
    have := congrArg List.length e
    simp [axisValues, samples_length] at this
    omega
  unfold mkAxis at h
  cases n with
  | none => injection h with h; exact ⟨fun _ e => absurd e (by simp), h.symm⟩
  | some k =>
    simp only at h
    have := Props.RawClasses.C23_step_offsets (axisValues val p i0) k hne
    have es : Props.RawClasses.starts (axisValues val p i0) = starts (axisValues val p i0) := rfl
    rw [es] at this
    unfold axisValues at this
    rw [this] at h
    by_cases h1 : k < (starts ((traceSamples p 0).map (val i0.num))).length
    · rw [if_pos h1] at h; exact absurd h (by simp)
    · rw [if_neg h1] at h
      by_cases h2 : (starts ((traceSamples p 0).map (val i0.num))).length < k
      · rw [if_pos h2] at h; exact absurd h (by simp)
      · rw [if_neg h2] at h
        injection h with h
        refine ⟨fun k' e => ?_, h.symm⟩
        injection e with e
        unfold axisValues
        omega

/-- The axis after any history of reads. -/
theorem reached_axis (val : NumType → Word → V) (p : Plot) (n : Option Nat) (s : St) (hs : Reached val p n s)
    (hnd : (p.info.map Info.name).Nodup) (hlen : p.nPoints * recordSize p.info ≤ p.data.length) (hp : 0 < p.nPoints)
    (i0 : Info) (is : List Info) (hinfo : p.info = i0 :: is) :
    s.axis = none ∨ (p.hasAxis = true ∧ s.axis = some ⟨true, i0.num, traceSamples p 0, n.map (fun _ => starts (axisValues val p i0))⟩ ∧
      ∀ k, n = some k → k = (starts (axisValues val p i0)).length) := by
  induction hs with
  | init => left; rfl
  | read s0 s1 names hr h ih =>
    obtain ⟨r1, r2, r3⟩ := read_axis val p n s0 names hnd hlen i0 is hinfo
    by_cases hax : p.hasAxis = true ∧ s0.axis = none
    · cases hm : mkAxis val n i0 (traceSamples p 0) with
      | error e => rw [r1 hax e hm] at h; exact absurd h (by simp)
      | ok ax =>
        obtain ⟨s', e1, e2⟩ := r2 hax ax hm
        rw [e1] at h
        injection h with h
        subst h
        obtain ⟨g1, g2⟩ := mkAxis_inv val p n i0 hp ax hm
        right
        exact ⟨hax.1, by rw [e2, g2], g1⟩
    · obtain ⟨s', e1, e2⟩ := r3 hax
      rw [e1] at h
      injection h with h
      subst h
      rw [e2]
      exact ih

/-- Where the steps begin: with steps, wherever the initial value of the axis occurs; without, at the first sample. -/
def begins (val : NumType → Word → V) (p : Plot) (i0 : Info) (n : Option Nat) : List Nat :=
  if n.isSome then starts (axisValues val p i0) else [0]

omit [DecidableEq V] in
theorem part_map {X Y : Type} (f : X → Y) (b : List Nat) (xs : List X) (k : Nat) : part b (xs.map f) k = (part b xs k).map f := by
  simp [part, List.map_take, List.map_drop]

/-- The offsets of the axis. -/
theorem offset_eq (val : NumType → Word → V) (p : Plot) (n : Option Nat) (i0 : Info) (b : Bool) (k : Nat) :
    Axis.stepOffset ⟨b, axisValues val p i0, n.map (fun _ => starts (axisValues val p i0))⟩ k = (begins val p i0 n).getD k p.nPoints := by
  have hl : (axisValues val p i0).length = p.nPoints := by simp [axisValues, samples_length]
  unfold Axis.stepOffset begins
  cases n with
  | none =>
    simp only [Option.map_none, Option.isSome_none, Bool.false_eq_true, if_false]
    cases k with
    | zero => simp
    | succ k => simp [hl]
  | some m =>
    simp only [Option.map_some, Option.isSome_some, if_true]
    rw [List.getD_eq_getElem?_getD]
    cases (starts (axisValues val p i0))[k]? with
    | none => simp [hl]
    | some o => rfl

theorem begins_zero (val : NumType → Word → V) (p : Plot) (n : Option Nat) (i0 : Info) (hp : 0 < p.nPoints) : (begins val p i0 n).getD 0 p.nPoints = 0 := by
  unfold begins
  split_ifs
  · have hne : axisValues val p i0 ≠ [] := by
      intro e
      have := congrArg List.length e
      simp [axisValues, samples_length] at this
      omega
    have := (Props.RawClasses.starts_good (axisValues val p i0) hne).zero
    have es : Props.RawClasses.starts (axisValues val p i0) = starts (axisValues val p i0) := rfl
    rw [es] at this
    rw [List.getD_eq_getElem?_getD, this]
    rfl
  · rfl

/-- The samples of a step, whether cut out of the axis or of a trace. -/
theorem cut_eq {X : Type} (val : NumType → Word → V) (p : Plot) (n : Option Nat) (i0 : Info) (hp : 0 < p.nPoints) (xs : List X) (hx : xs.length = p.nPoints)
    (a : Axis V) (ha : ∀ k, a.stepOffset k = (begins val p i0 n).getD k p.nPoints) (k : Nat) :
    (if k = 0 then xs.take (a.stepOffset 1) else slice xs (a.stepOffset k) (a.stepOffset (k + 1))) = part (begins val p i0 n) xs k := by
  unfold part slice
  rw [hx]
  by_cases h : k = 0
  · subst h
    rw [if_pos rfl, ha, begins_zero val p n i0 hp, List.drop_zero]
  · rw [if_neg h, ha, ha]

/-- What get_wave gives for a loaded trace of a file with an axis. -/
theorem wave_part (val : NumType → Word → V) (absf : V → V) (p : Plot) (n : Option Nat) (s : St) (hp : 0 < p.nPoints) (i0 : Info) (is : List Info)
    (hinfo : p.info = i0 :: is)
    (hax : s.axis = some ⟨true, i0.num, traceSamples p 0, n.map (fun _ => starts (axisValues val p i0))⟩) (l : Loaded)
    (hl : (∃ (i : Nat) (t : Info), l = ⟨false, t.num, traceSamples p i, none⟩) ∨
      l = ⟨true, i0.num, traceSamples p 0, n.map (fun _ => starts (axisValues val p i0))⟩) (k : Nat) :
    wave val absf p s l k =
      part (begins val p i0 n) (if l.isAxis = true ∧ i0.name = "time".toList then (l.data.map (val l.num)).map absf else l.data.map (val l.num)) k := by
  have hoff : ∀ k, (axisOf val p ⟨true, i0.num, traceSamples p 0, n.map (fun _ => starts (axisValues val p i0))⟩).stepOffset k =
      (begins val p i0 n).getD k p.nPoints := fun k => offset_eq val p n i0 _ k
  unfold wave
  rcases hl with ⟨i, t, rfl⟩ | rfl
  · rw [if_neg (by simp), if_neg (by simp), hax]
    simp only [Option.map_some, Trace.getWave]
    exact cut_eq val p n i0 hp _ (by simp [samples_length]) _ hoff k
  · rw [if_pos rfl]
    unfold Axis.getWave
    have hd : (axisOf val p ⟨true, i0.num, traceSamples p 0, n.map (fun _ => starts (axisValues val p i0))⟩).data = (traceSamples p 0).map (val i0.num) := rfl
    have ht : (axisOf val p ⟨true, i0.num, traceSamples p 0, n.map (fun _ => starts (axisValues val p i0))⟩).isTime = decide (i0.name = "time".toList) := by
      unfold axisOf; rw [hinfo]
    rw [hd, ht]
    simp only [true_and, decide_eq_true_eq]
    rw [cut_eq val p n i0 hp _ (by simp [samples_length]) _ hoff k]
    by_cases hn : i0.name = "time".toList
    · rw [if_pos hn, if_pos hn, part_map absf]
    · rw [if_neg hn, if_neg hn]

/-! The loops of export, once every column has been read. -/

theorem keys_put {X : Type} (d : List (Str × X)) (k : Str) (v : X) :
    (put d k v).map Prod.fst = if k ∈ d.map Prod.fst then d.map Prod.fst else d.map Prod.fst ++ [k] := by
  induction d with
  | nil => rfl
  | cons e d ih =>
    obtain ⟨k', v'⟩ := e
    unfold put
    by_cases h : k' = k
    · subst h; simp
    · rw [if_neg h]
      have h' : ¬ k = k' := fun e => h e.symm
      simp only [List.map_cons, List.mem_cons, h', false_or, ih]
      split_ifs <;> rfl

/-- One step: every column grows by its part. -/
theorem cols_step (val : NumType → Word → V) (absf : V → V) (p : Plot) (n : Option Nat) (k : Nat) (s : St) (f : Str → Loaded) :
    ∀ (cols : List Str) (d : List (Str × List V)), cols.Nodup → (∀ c ∈ cols, s.reads.lookup c = some (f c)) →
    ∃ d', exportCols val absf p n k cols s d = .ok (s, d') ∧
      (∀ c ∈ cols, d'.lookup c = some ((d.lookup c).getD [] ++ wave val absf p s (f c) k)) ∧ (∀ c, c ∉ cols → d'.lookup c = d.lookup c) ∧
      d'.map Prod.fst = d.map Prod.fst ++ cols.filter (fun c => c ∉ d.map Prod.fst) := by
  intro cols
  induction cols with
  | nil => intro d _ _; exact ⟨d, rfl, by simp, fun _ _ => rfl, by simp⟩
  | cons c cols ih =>
    intro d hnd h
    rw [List.nodup_cons] at hnd
    obtain ⟨d', e, h1, h2, h3⟩ := ih (put d c ((d.lookup c).getD [] ++ wave val absf p s (f c) k)) hnd.2 (fun x hx => h x (by simp [hx]))
    refine ⟨d', ?_, ?_, ?_, ?_⟩
    · unfold exportCols
      have : getTrace val p n s c = .ok (f c, s) := by
        unfold getTrace; rw [h c (by simp)]
      rw [this]
      exact e
    · intro x hx
      rcases List.mem_cons.mp hx with rfl | hx
      · rw [h2 x hnd.1, Props.RawRead.lookup_put, if_pos rfl]
      · have hne : x ≠ c := fun e => hnd.1 (e ▸ hx)
        rw [h1 x hx, Props.RawRead.lookup_put, if_neg hne]
    · intro x hx
      simp only [List.mem_cons, not_or] at hx
      rw [h2 x hx.2, Props.RawRead.lookup_put, if_neg hx.1]
    · rw [h3, keys_put]
      by_cases hm : c ∈ d.map Prod.fst
      · rw [if_pos hm, List.filter_cons_of_neg (by simpa using hm)]
      · rw [if_neg hm, List.filter_cons_of_pos (by simpa using hm)]
        simp only [List.append_assoc, List.cons_append, List.nil_append]
        congr 2
        apply List.filter_congr
        intro x hx
        have hne : x ≠ c := fun e => hnd.1 (e ▸ hx)
        simp [hne]

/-- All steps. -/
theorem steps_loop (val : NumType → Word → V) (absf : V → V) (p : Plot) (n : Option Nat) (s : St) (f : Str → Loaded) (cols : List Str)
    (hnd : cols.Nodup) (hr : ∀ c ∈ cols, s.reads.lookup c = some (f c)) :
    ∀ (ks : List Nat) (d : List (Str × List V)), (d.map Prod.fst = [] ∨ d.map Prod.fst = cols) →
    ∃ d', exportLoop val absf p n cols ks s d = .ok (s, d') ∧ d'.map Prod.fst = (if ks = [] then d.map Prod.fst else cols) ∧
      ∀ c ∈ cols, ks ≠ [] → d'.lookup c = some ((d.lookup c).getD [] ++ ks.flatMap (wave val absf p s (f c))) := by
  intro ks
  induction ks with
  | nil => intro d _; exact ⟨d, rfl, by simp, fun _ _ h => absurd rfl h⟩
  | cons k ks ih =>
    intro d hd
    obtain ⟨d1, e1, h1, _, h3⟩ := cols_step val absf p n k s f cols d hnd hr
    have hk : d1.map Prod.fst = cols := by
      rw [h3]
      rcases hd with hd | hd
      · rw [hd]; simp
      · rw [hd]
        have : cols.filter (fun c => c ∉ cols) = [] := by rw [List.filter_eq_nil_iff]; intro a ha; simpa using ha
        rw [this, List.append_nil]
    obtain ⟨d2, e2, g1, g2⟩ := ih d1 (.inr hk)
    refine ⟨d2, ?_, ?_, ?_⟩
    · unfold exportLoop
      rw [e1]
      exact e2
    · rw [g1, hk]
      simp
    · intro c hc _
      by_cases hks : ks = []
      · subst hks
        simp only [exportLoop] at e2
        injection e2 with e2
        injection e2 with _ e2
        subst e2
        rw [h1 c hc]
        simp
      · rw [g2 c hc hks, h1 c hc]
        simp

/-- The columns of an export: all traces, or the ones asked for, preceded by the axis if it has been read and is not among them. -/
def wanted (p : Plot) (s : St) (i0 : Info) (columns : Option (List Str)) : List Str :=
  columns.elim (p.info.map Info.name) (fun cs => if s.axis.isSome = true ∧ i0.name ∉ cs then i0.name :: cs else cs)

/-- The values of a column: the samples of the trace; when the export itself reads a time axis for the first time, their absolute values. -/
def columnValues (val : NumType → Word → V) (absf : V → V) (p : Plot) (s : St) (i : Nat) (t : Info) : List V :=
  if i = 0 ∧ p.hasAxis = true ∧ s.axis = none ∧ t.name = "time".toList then ((traceSamples p i).map (val t.num)).map absf
  else (traceSamples p i).map (val t.num)

/-- C72: export(columns, step, …) of a complete file, after any history of reads: the columns asked for, each the concatenation of the
samples of its trace in the steps asked for, in their order. A file without axis gives all its samples for every step. -/
theorem C72_export (val : NumType → Word → V) (absf : V → V) (p : Plot) (steps : Option (List (Step W))) (s : St) (columns : Option (List Str))
    (which : Which) (kw : List (Str × W)) (hnd : (p.info.map Info.name).Nodup) (hlen : p.nPoints * recordSize p.info ≤ p.data.length)
    (hp : 0 < p.nPoints) (hs : Reached val p (steps.map List.length) s) (i0 : Info) (is : List Info) (hinfo : p.info = i0 :: is)
    (hsteps : ∀ l, steps = some l → p.hasAxis = true → l.length = (starts (axisValues val p i0)).length)
    (hdist : (wanted p s i0 columns).Nodup) (hnames : ∀ c ∈ wanted p s i0 columns, c ∈ p.info.map Info.name) :
    ∃ (s' : St) (d : List (Str × List V)), export' val absf p steps s columns which kw = .ok (s', d) ∧ Reached val p (steps.map List.length) s' ∧
      d.map Prod.fst = (if stepsToRead steps kw which = [] then [] else wanted p s i0 columns) ∧
      ∀ (i : Nat) (t : Info), p.info[i]? = some t → t.name ∈ wanted p s i0 columns → stepsToRead steps kw which ≠ [] →
        d.lookup t.name = some ((stepsToRead steps kw which).flatMap (fun k =>
          if p.hasAxis = true then part (begins val p i0 (steps.map List.length)) (columnValues val absf p s i t) k
          else (traceSamples p i).map (val t.num))) := by
  have hcols : columnsOf p s columns = wanted p s i0 columns := by
    unfold columnsOf wanted
    cases columns with
    | none => rfl
    | some cs =>
      simp only [Option.elim]
      rw [hinfo]
      cases s.axis with
      | none => simp
      | some a =>
        simp only [Option.isSome_some, true_and]
        by_cases hm : i0.name ∈ cs
        · simp [hm]
        · simp [hm]
  generalize hn : steps.map List.length = n at *
  have hfit : p.hasAxis = true → ∀ k, n = some k → k = (starts (axisValues val p i0)).length := by
    intro ha k hk
    cases steps with
    | none => subst hn; exact absurd hk (by simp)
    | some l =>
      subst hn
      injection hk with hk
      rw [← hk]
      exact hsteps l rfl ha
  -- reading
  obtain ⟨_, r2, r3⟩ := read_axis val p n s (wanted p s i0 columns) hnd hlen i0 is hinfo
  have hread : ∃ s1, readTraceData val p n s (wanted p s i0 columns) = .ok s1 ∧
      (p.hasAxis = true → s1.axis = some ⟨true, i0.num, traceSamples p 0, n.map (fun _ => starts (axisValues val p i0))⟩) ∧ (p.hasAxis = false → s1.axis = none) := by
    have hra := reached_axis val p n s hs hnd hlen hp i0 is hinfo
    by_cases hax : p.hasAxis = true ∧ s.axis = none
    · obtain ⟨s1, e1, e2⟩ := r2 hax _ (mkAxis_steps val p n i0 hp (hfit hax.1))
      exact ⟨s1, e1, fun _ => e2, fun h => absurd hax.1 (by rw [h]; simp)⟩
    · obtain ⟨s1, e1, e2⟩ := r3 hax
      refine ⟨s1, e1, fun h => ?_, fun h => ?_⟩
      · rcases hra with hn' | ⟨_, he, _⟩
        · exact absurd ⟨h, hn'⟩ hax
        · rw [e2, he]
      · rcases hra with hn' | ⟨hb, _, _⟩
        · rw [e2, hn']
        · rw [h] at hb; exact absurd hb (by simp)
  obtain ⟨s1, e1, hax1, hax0⟩ := hread
  have hreach : Reached val p n s1 := Reached.read s s1 _ hs e1
  -- what is stored under the names
  have hex := fun (i : Nat) (t : Info) (hi : p.info[i]? = some t) => Props.RawRead.C25_read_exact val p n s s1 (wanted p s i0 columns) hnd e1 i t hi
  have hlook : ∀ (i : Nat) (t : Info), p.info[i]? = some t → t.name ∈ wanted p s i0 columns →
      s1.reads.lookup t.name = some (if i = 0 ∧ p.hasAxis = true ∧ s.axis = none then ⟨true, i0.num, traceSamples p 0, n.map (fun _ => starts (axisValues val p i0))⟩
        else ⟨false, t.num, traceSamples p i, none⟩) := by
    intro i t hi hm
    have := hex i t hi
    by_cases h1 : i = 0 ∧ p.hasAxis = true ∧ s.axis = none
    · have h1' : i = 0 ∧ p.hasAxis = true ∧ s.axis.isNone = true := by rw [Option.isNone_iff_eq_none]; exact h1
      rw [if_pos h1'] at this
      obtain ⟨o, ho1, ho2⟩ := this
      rw [if_pos h1, ho1, ← ho2, hax1 h1.2.1]
    · have h1' : ¬ (i = 0 ∧ p.hasAxis = true ∧ s.axis.isNone = true) := by rw [Option.isNone_iff_eq_none]; exact h1
      rw [if_neg h1', if_pos hm] at this
      rw [if_neg h1, this]
  have hall : ∀ c ∈ wanted p s i0 columns, ∃ l, s1.reads.lookup c = some l := by
    intro c hc
    obtain ⟨t, ht, rfl⟩ := List.mem_map.mp (hnames c hc)
    obtain ⟨i, hi⟩ := List.mem_iff_getElem?.mp ht
    exact ⟨_, hlook i t hi hc⟩
  let f : Str → Loaded := fun c => (s1.reads.lookup c).getD ⟨false, .real, [], none⟩
  have hf : ∀ c ∈ wanted p s i0 columns, s1.reads.lookup c = some (f c) := by
    intro c hc
    obtain ⟨l, hl⟩ := hall c hc
    simp only [f, hl, Option.getD_some]
  obtain ⟨d, e2, h1, h2⟩ := steps_loop val absf p n s1 f _ hdist hf (stepsToRead steps kw which) [] (.inl rfl)
  refine ⟨s1, d, ?_, hreach, h1, ?_⟩
  · unfold export'
    rw [hcols, hn, e1]
    exact e2
  · intro i t hi hm hk
    rw [h2 t.name hm hk]
    simp only [List.lookup_nil, Option.getD_none, List.nil_append]
    have hft : f t.name = (if i = 0 ∧ p.hasAxis = true ∧ s.axis = none then ⟨true, i0.num, traceSamples p 0, n.map (fun _ => starts (axisValues val p i0))⟩
        else ⟨false, t.num, traceSamples p i, none⟩) := by
      simp only [f, hlook i t hi hm, Option.getD_some]
    congr 2
    funext k
    by_cases ha : p.hasAxis = true
    · rw [if_pos ha, hft]
      rw [wave_part val absf p n s1 hp i0 is hinfo (hax1 ha) _ (by
        by_cases h0 : i = 0 ∧ p.hasAxis = true ∧ s.axis = none
        · rw [if_pos h0]; right; rfl
        · rw [if_neg h0]; left; exact ⟨i, t, rfl⟩) k]
      congr 1
      unfold columnValues
      by_cases h0 : i = 0 ∧ p.hasAxis = true ∧ s.axis = none
      · have ht : t = i0 := by
          rw [hinfo, h0.1] at hi
          simp at hi
          exact hi.symm
        rw [if_pos h0, ht, h0.1]
        simp only [true_and, ha, h0.2.2]
      · rw [if_neg h0, if_neg (by simp), if_neg (by tauto)]
    · have ha' : p.hasAxis = false := by simpa using ha
      rw [if_neg ha, hft, if_neg (by rw [ha']; simp)]
      unfold wave
      rw [if_neg (by simp), hax0 ha']
      rfl

/-- C72: exporting all steps of a file with an axis gives every column whole, in the order of the file. -/
theorem C72_export_all (val : NumType → Word → V) (absf : V → V) (p : Plot) (steps : Option (List (Step W))) (s : St)
    (hnd : (p.info.map Info.name).Nodup) (hlen : p.nPoints * recordSize p.info ≤ p.data.length)
    (hp : 0 < p.nPoints) (hs : Reached val p (steps.map List.length) s) (i0 : Info) (is : List Info) (hinfo : p.info = i0 :: is)
    (hsteps : ∀ l, steps = some l → l.length = (starts (axisValues val p i0)).length) (hax : p.hasAxis = true) :
    ∃ (s' : St) (d : List (Str × List V)), export' val absf p steps s none .all [] = .ok (s', d) ∧ Reached val p (steps.map List.length) s' ∧
      d.map Prod.fst = p.info.map Info.name ∧
      ∀ (i : Nat) (t : Info), p.info[i]? = some t → d.lookup t.name = some (columnValues val absf p s i t) := by
  obtain ⟨s', d, e, hr, h1, h2⟩ := C72_export val absf p steps s none .all [] hnd hlen hp hs i0 is hinfo (fun l hl _ => hsteps l hl) hnd (fun c hc => hc)
  have hne : axisValues val p i0 ≠ [] := by
    intro e
    have := congrArg List.length e
    simp [axisValues, samples_length] at this
    omega
  have hk : stepsToRead steps ([] : List (Str × W)) .all = List.range (begins val p i0 (steps.map List.length)).length := by
    cases steps with
    | none => rfl
    | some l =>
      simp only [stepsToRead, getSteps, List.length_nil, gt_iff_lt, Nat.lt_irrefl, if_false, Option.map_some, begins, Option.isSome_some, if_true]
      rw [hsteps l rfl]
  have hpos : 0 < (begins val p i0 (steps.map List.length)).length := by
    unfold begins
    split_ifs
    · exact Props.RawClasses.starts_pos _ hne
    · simp
  have hk0 : stepsToRead steps ([] : List (Str × W)) .all ≠ [] := by
    rw [hk]
    intro e
    rw [List.range_eq_nil] at e
    omega
  refine ⟨s', d, e, hr, ?_, ?_⟩
  · rw [h1, if_neg hk0]; rfl
  · intro i t hi
    rw [h2 i t hi (by exact List.mem_map_of_mem (List.mem_of_getElem? hi)) hk0, hk]
    simp only [hax, if_true]
    congr 1
    have hlenc : (columnValues val absf p s i t).length = p.nPoints := by
      unfold columnValues
      split_ifs <;> simp [samples_length]
    generalize columnValues val absf p s i t = xs at hlenc
    cases hst : steps with
    | none =>
      simp only [begins, Option.map_none, Option.isSome_none, Bool.false_eq_true, if_false, part]
      simp
    | some l =>
      simp only [begins, Option.map_some, Option.isSome_some, if_true]
      have g := Props.RawClasses.starts_good (axisValues val p i0) hne
      let a : Axis V := ⟨false, axisValues val p i0, some (starts (axisValues val p i0))⟩
      have hl : (axisValues val p i0).length = p.nPoints := by simp [axisValues, samples_length]
      have ho : ∀ k, a.stepOffset k = (starts (axisValues val p i0)).getD k p.nPoints := by
        intro k
        have := offset_eq val p (some l.length) i0 false k
        simpa [begins] using this
      have hc := Props.RawClasses.slices_concat xs a (starts (axisValues val p i0)) rfl g (starts (axisValues val p i0)).length
      rw [ho, List.getD_eq_default _ _ (Nat.le_refl _), ← hlenc, List.take_length] at hc
      have hfun : (fun k => part (starts (axisValues val p i0)) xs k) = fun k => slice xs (a.stepOffset k) (a.stepOffset (k + 1)) := by
        funext k
        unfold part slice
        rw [ho, ho, hlenc]
      rw [hfun]
      exact hc

/-- C72: the columns of an export are equally long. -/
theorem C72_aligned (val : NumType → Word → V) (absf : V → V) (p : Plot) (steps : Option (List (Step W))) (s : St) (columns : Option (List Str))
    (which : Which) (kw : List (Str × W)) (hnd : (p.info.map Info.name).Nodup) (hlen : p.nPoints * recordSize p.info ≤ p.data.length)
    (hp : 0 < p.nPoints) (hs : Reached val p (steps.map List.length) s) (i0 : Info) (is : List Info) (hinfo : p.info = i0 :: is)
    (hsteps : ∀ l, steps = some l → p.hasAxis = true → l.length = (starts (axisValues val p i0)).length)
    (hdist : (wanted p s i0 columns).Nodup) (hnames : ∀ c ∈ wanted p s i0 columns, c ∈ p.info.map Info.name) (s' : St) (d : List (Str × List V))
    (h : export' val absf p steps s columns which kw = .ok (s', d)) : ∀ a ∈ d, ∀ b ∈ d, a.2.length = b.2.length := by
  obtain ⟨s2, d2, e, _, h1, h2⟩ := C72_export val absf p steps s columns which kw hnd hlen hp hs i0 is hinfo hsteps hdist hnames
  rw [h] at e
  injection e with e
  injection e with _ e
  subst e
  have hlenc : ∀ i t, (columnValues val absf p s i t).length = p.nPoints := by
    intro i t
    unfold columnValues
    split_ifs <;> simp [samples_length]
  have key : ∀ a ∈ d, a.2.length = ((stepsToRead steps kw which).flatMap (fun k =>
      if p.hasAxis = true then part (begins val p i0 (steps.map List.length)) (List.replicate p.nPoints ()) k else List.replicate p.nPoints ())).length := by
    intro a ha
    have hmem : a.1 ∈ d.map Prod.fst := List.mem_map_of_mem ha
    have hk : stepsToRead steps kw which ≠ [] := by
      intro hk
      rw [h1, if_pos hk] at hmem
      exact absurd hmem (by simp)
    have hmem' := hmem
    rw [h1, if_neg hk] at hmem'
    obtain ⟨t, ht, hn⟩ := List.mem_map.mp (hnames a.1 hmem')
    obtain ⟨i, hi⟩ := List.mem_iff_getElem?.mp ht
    have hl := h2 i t hi (by rw [hn]; exact hmem') hk
    have hnd' : (d.map Prod.fst).Nodup := by rw [h1, if_neg hk]; exact hdist
    have : d.lookup a.1 = some a.2 := (Props.SchComp.lookup_mem d hnd' a.1 a.2).1 ha
    rw [hn, this] at hl
    injection hl with hl
    rw [hl, List.length_flatMap, List.length_flatMap]
    congr 1
    apply List.map_congr_left
    intro k _
    by_cases hx : p.hasAxis = true
    · rw [if_pos hx, if_pos hx]
      unfold part
      simp only [List.length_drop, List.length_take, hlenc, List.length_replicate]
    · rw [if_neg hx, if_neg hx]
      simp [samples_length]
  intro a ha b hb
  rw [key a ha, key b hb]

theorem join_eq (sep : Str) (l : List Str) : joinWith sep l = List.intercalate sep l := by
  induction l with
  | nil => rfl
  | cons a l ih =>
    cases l with
    | nil => simp [joinWith, List.intercalate]
    | cons b l =>
      unfold joinWith
      rw [ih]
      simp [List.intercalate]

omit [DecidableEq V] in
theorem csvRow_eq (showV : V → Str) (i : Nat) (d : List (Str × List V)) (h : ∀ c ∈ d, i < c.2.length) :
    csvRow showV i d = .ok (d.filterMap (fun c => c.2[i]?.map showV)) := by
  induction d with
  | nil => rfl
  | cons c d ih =>
    obtain ⟨k, xs⟩ := c
    have hi : i < xs.length := h (k, xs) (by simp)
    unfold csvRow
    rw [List.getElem?_eq_getElem hi]
    simp only
    rw [ih (fun c hc => h c (by simp [hc])), List.filterMap_cons_some (b := showV xs[i]) (by simp [List.getElem?_eq_getElem hi])]

/-- C72: the CSV file written without pandas: a line with the names of the columns, then for every sample a line with its value in every
column. -/
theorem C72_csv (showV : V → Str) (sep : Str) (d : List (Str × List V)) (n : Nat) (hne : d ≠ []) (h : ∀ c ∈ d, c.2.length = n) :
    csvText showV sep d = .ok (table sep (d.map Prod.fst) ((List.range n).map (fun i => d.filterMap (fun c => c.2[i]?.map showV)))) := by
  have hrows : ∀ is : List Nat, (∀ i ∈ is, i < n) →
      csvRows showV sep d is = .ok (is.flatMap (fun i => List.intercalate sep (d.filterMap (fun c => c.2[i]?.map showV)) ++ ['\n'])) := by
    intro is
    induction is with
    | nil => intro _; rfl
    | cons i is ih =>
      intro hi
      unfold csvRows
      rw [csvRow_eq showV i d (fun c hc => by rw [h c hc]; exact hi i (by simp))]
      simp only
      rw [ih (fun j hj => hi j (by simp [hj])), join_eq]
      simp
  obtain ⟨c, d', rfl⟩ := List.exists_cons_of_ne_nil hne
  unfold csvText
  simp only
  rw [h c (by simp), hrows (List.range n) (fun i hi => List.mem_range.mp hi), join_eq]
  simp [table, List.flatMap_map]

/-- C72 limit: a stepped file with an axis but without a usable log cannot be read at all: the steps are taken to be none, and whatever is
asked for, reading is an IndexError. -/
theorem C72_no_log_unreadable (val : NumType → Word → V) (p : Plot) (hnd : (p.info.map Info.name).Nodup) (hlen : p.nPoints * recordSize p.info ≤ p.data.length)
    (hne : p.info ≠ []) (hax : p.hasAxis = true) (conv : Str → W) (num : Nat → W) (hp : p.steppedFlag = true) (command : Option Str) (suffix : Str)
    (names : List Str) :
    ∃ steps : Option (List (Step W)), stepsOf conv num p command suffix none = .ok steps ∧ getSteps steps [] = [] ∧
      readTraceData val p (steps.map List.length) St.init names = .error .index := by
  refine ⟨some [], ?_, rfl, ?_⟩
  · rw [C72_no_log conv num p hp command suffix none (.inl rfl), hax]; rfl
  · obtain ⟨i0, is, hinfo⟩ := List.exists_cons_of_ne_nil hne
    exact (read_axis val p (some 0) St.init names hnd hlen i0 is hinfo).1 ⟨hax, rfl⟩ .index rfl

/-- C72 limit: exporting all steps of a stepped file without axis (an operating point for every step) gives every column as many times as
there are steps. -/
theorem C72_no_axis_repeated (val : NumType → Word → V) (absf : V → V) (p : Plot) (l : List (Step W)) (hl : l ≠ []) (s : St)
    (hnd : (p.info.map Info.name).Nodup) (hlen : p.nPoints * recordSize p.info ≤ p.data.length)
    (hp : 0 < p.nPoints) (hs : Reached val p (some l.length) s) (hne : p.info ≠ []) (hax : p.hasAxis = false) :
    ∃ (s' : St) (d : List (Str × List V)), export' val absf p (some l) s none .all [] = .ok (s', d) ∧
      ∀ (i : Nat) (t : Info), p.info[i]? = some t → d.lookup t.name = some (List.replicate l.length ((traceSamples p i).map (val t.num))).flatten := by
  obtain ⟨i0, is, hinfo⟩ := List.exists_cons_of_ne_nil hne
  obtain ⟨s', d, e, _, _, h2⟩ := C72_export val absf p (some l) s none .all [] hnd hlen hp hs i0 is hinfo
    (fun _ _ h => absurd h (by rw [hax]; simp)) hnd (fun c hc => hc)
  refine ⟨s', d, e, ?_⟩
  intro i t hi
  have hk : stepsToRead (some l) ([] : List (Str × W)) .all = List.range l.length := rfl
  have hk0 : stepsToRead (some l) ([] : List (Str × W)) .all ≠ [] := by
    rw [hk]; intro e; rw [List.range_eq_nil] at e; exact hl (List.length_eq_zero_iff.mp e)
  rw [h2 i t hi (by exact List.mem_map_of_mem (List.mem_of_getElem? hi)) hk0, hk]
  simp only [hax, Bool.false_eq_true, if_false]
  congr 1
  rw [List.flatMap_def]
  congr 1
  rw [List.map_const', List.length_range]

/-- Two steps of two points: a time axis (its last value stored negative, as LTspice does) and a voltage. -/
def stepped : Plot :=
  ⟨4, 2, "ltspice".toList, true, true, true, [⟨"time".toList, .double, "time".toList⟩, ⟨"V(a)".toList, .real, "voltage".toList⟩],
    [0,0,0,0,0,0,0,0, 0,0,0,0,0,0,0,1, 0,0,0,0,0,0,0,0, 0,0,0,0,0,0,0,129] ++ [0,0,0,5, 0,0,0,6, 0,0,0,7, 0,0,0,8]⟩

/-- Samples as integers: the last byte, its top bit the sign. -/
def tiny : NumType → Word → Int := fun _ w => match w.getLast? with
  | none => 0
  | some b => if b.toNat ≥ 128 then 128 - (b.toNat : Int) else b.toNat

def twoSteps : Option (List (Step Str)) := some [[("R".toList, "1k".toList), ("T".toList, "25".toList)], [("R".toList, "2k".toList), ("T".toList, "25".toList)]]

/-- C72: an instance: the log, the steps matching a condition, the export of all steps and of one, and the CSV file. -/
theorem C72_sample :
    (stepsOf id (fun _ => []) stepped (some "Linear Technology Corporation LTspice XVII".toList) ".raw".toList
      (some "Circuit: * a\n.step R=1k T=25\nDate: .step\n.step R=2k T=25\n".toList)).toOption = some twoSteps ∧
    getSteps twoSteps [("R".toList, "2k".toList)] = [1] ∧ getSteps twoSteps [("T".toList, "25".toList)] = [0, 1] ∧ getSteps twoSteps [("Q".toList, [])] = [] ∧
    ((export' tiny (fun x => if x < 0 then -x else x) stepped twoSteps St.init none .all []).toOption.map Prod.snd) =
      some [("time".toList, [0, 1, 0, 1]), ("V(a)".toList, [5, 6, 7, 8])] ∧
    ((export' tiny (fun x => if x < 0 then -x else x) stepped twoSteps St.init (some ["V(a)".toList]) (.one 1) []).toOption.map Prod.snd) =
      some [("V(a)".toList, [7, 8])] ∧
    (csvText showInt ",".toList [("time".toList, [0, 1]), ("V(a)".toList, [5, -6])]).toOption = some "time,V(a)\n0,5\n1,-6\n".toList := by
  refine ⟨rfl, ?_, ?_, ?_, ?_, ?_, ?_⟩ <;> decide +kernel

/-- The hypotheses of C72_export_all are met by this file. -/
example : (stepped.info.map Info.name).Nodup ∧ stepped.nPoints * recordSize stepped.info ≤ stepped.data.length ∧
    (starts (axisValues tiny stepped ⟨"time".toList, .double, "time".toList⟩)).length = 2 := by decide +kernel

/-- C72 limit: the last character of a step line is taken for its line feed: a log that ends without one loses it. -/
theorem C72_last_character_lost :
    (stepsOf id (fun _ => []) stepped (some "LTspice".toList) ".raw".toList (some "Circuit: a\n.step R=10".toList)).toOption = some (some [[("R".toList, "1".toList)]]) := by
  decide +kernel

/-- C72 limit: a parameter with a second equal sign makes the file unreadable (a ValueError, not a warning). -/
theorem C72_second_equal_sign :
    stepsOf id (fun _ => []) stepped (some "LTspice".toList) ".raw".toList (some ".step a=b=c\n".toList) = .error .value := by
  rfl

/-- C72 limit: whether the axis is added to the columns, and whether its negative values are corrected, depends on what was read before. -/
theorem C72_depends_on_history : ∃ s1 : St, readTraceData tiny stepped (some 2) St.init [] = .ok s1 ∧
    ((export' tiny (fun x => if x < 0 then -x else x) stepped twoSteps St.init (some ["V(a)".toList]) .all []).toOption.map Prod.snd) =
      some [("V(a)".toList, [5, 6, 7, 8])] ∧
    ((export' tiny (fun x => if x < 0 then -x else x) stepped twoSteps s1 (some ["V(a)".toList]) .all []).toOption.map Prod.snd) =
      some [("time".toList, [0, 1, 0, -1]), ("V(a)".toList, [5, 6, 7, 8])] := by
  refine ⟨_, rfl, ?_, ?_⟩ <;> decide +kernel

end Props.RawSteps
