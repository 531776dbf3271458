import Verif.Model.SubFind
import Verif.Spec.SubFind
import Verif.Props.NetTree
import Verif.Props.LogFile
import Verif.Props.CompLine
/-
C80: which definition the name of a sub-circuit stands for.
-/
namespace Props.SubFind
open Model.SubFind Model.Regex Lemmas.Regex Spec.SubFind
open Model.PyStr (isSpace)
open Model.NetTree (Item addLines Loaded)
open Model.CompLine (lit sp dot WordClass)
open Model.LogFile (ilits)
open Spec.NetBlocks (Block linesOf allOk kindOf)
open Props.NetTree (itemsOf raws)

abbrev Str := List Char
abbrev RSt := Model.Regex.St

/-! ### The expressions -/

theorem run_ilits (pat : Str) (hp : ∀ c ∈ pat, c.toUpper = c) (r : Re) : ∀ (s t : RSt), Run (ilits pat r) s t ↔
    ∃ a rest, s.rest = a ++ rest ∧ Same a pat ∧ Run r (adv s a rest) t := by
  induction pat with
  | nil =>
    intro s t
    simp only [ilits]
    constructor
    · intro h; exact ⟨[], s.rest, rfl, .nil, by rw [adv_nil]; exact h⟩
    · rintro ⟨a, rest, h1, h2, h3⟩
      cases h2
      rw [show rest = s.rest by simpa using h1.symm, adv_nil] at h3
      exact h3
  | cons c pat ih =>
    intro s t
    have hc := hp c (by simp)
    have ih := ih (fun d hd => hp d (by simp [hd]))
    simp only [ilits]
    constructor
    · intro h
      cases h with
      | seq h1 h2 =>
        cases h1 with
        | @cls _ _ d rest hr hd =>
          obtain ⟨a, rest', e1, e2, e3⟩ := (ih _ _).1 h2
          have e1' : rest = a ++ rest' := e1
          refine ⟨d :: a, rest', by rw [hr, e1']; rfl, .cons ?_ e2, ?_⟩
          · simp only [Bool.or_eq_true, decide_eq_true_eq] at hd
            rcases hd with rfl | hd
            · rfl
            · rw [hd, hc]
          · rw [next_adv s d, Lemmas.Regex.adv_adv] at e3
            exact e3
    · rintro ⟨a, rest, h1, h2, h3⟩
      cases h2 with
      | @cons d _ a _ hd h2 =>
        refine .seq (.cls (c := d) (r := a ++ rest) h1 (by simp [hd, hc])) ?_
        refine (ih _ _).2 ⟨a, rest, rfl, h2, ?_⟩
        rw [next_adv s d, Lemmas.Regex.adv_adv]
        exact h3

theorem run_nameRe (name : Str) (hn : ∀ c ∈ name, c ≠ '.') : ∀ (s t : RSt), Run (nameRe name) s t ↔
    ∃ a rest, s.rest = a ++ rest ∧ Same a name ∧ t = adv s a rest := by
  induction name with
  | nil =>
    intro s t
    simp only [nameRe]
    constructor
    · intro h; cases h; exact ⟨[], s.rest, rfl, .nil, (adv_nil s).symm⟩
    · rintro ⟨a, rest, h1, h2, h3⟩
      cases h2
      rw [show rest = s.rest by simpa using h1.symm, adv_nil] at h3
      rw [h3]
      exact .nil
  | cons c name ih =>
    intro s t
    have hc := hn c (by simp)
    have ih := ih (fun d hd => hn d (by simp [hd]))
    simp only [nameRe, if_neg hc]
    constructor
    · intro h
      cases h with
      | seq h1 h2 =>
        cases h1 with
        | @cls _ _ d rest hr hd =>
          obtain ⟨a, rest', e1, e2, e3⟩ := (ih _ _).1 h2
          have e1' : rest = a ++ rest' := e1
          refine ⟨d :: a, rest', by rw [hr, e1']; rfl, .cons (by simpa using hd) e2, ?_⟩
          rw [next_adv s d, Lemmas.Regex.adv_adv] at e3
          exact e3
    · rintro ⟨a, rest, h1, h2, h3⟩
      cases h2 with
      | @cons d _ a _ hd h2 =>
        refine .seq (.cls (c := d) (r := a ++ rest) h1 (by simpa using hd)) ?_
        refine (ih _ _).2 ⟨a, rest, rfl, h2, ?_⟩
        rw [next_adv s d, Lemmas.Regex.adv_adv]
        exact h3

theorem plain_no_dot {name : Str} (h : PlainName name) : ∀ c ∈ name, c ≠ '.' := by
  intro c hc e
  exact h.1 c hc (by rw [e]; decide)

theorem Between.rest {s t : RSt} {a : Str} (h : Between s t a) (hc : t.caps = s.caps) : t = adv s a t.rest := by
  cases t
  simp only [adv, Model.Regex.St.mk.injEq, true_and]
  exact ⟨h.pos, hc⟩

/-- What the search of a library takes for a definition. -/
theorem matches_iff (name line : Str) (h : PlainName name) : (exec (findRe name) line).isSome = true ↔ Resembles name line := by
  rw [exec_iff]
  constructor
  · rintro ⟨t, ht⟩
    unfold findRe clauseRe at ht
    cases ht with
    | seq h1 h2 =>
      cases h1 with
      | @cls _ _ c rest hr hd =>
        obtain ⟨kw, r1, e1, e2, e3⟩ := (run_ilits _ (by decide) _ _ _).1 h2
        cases e3 with
        | seq h3 h4 =>
          obtain ⟨bl, hb, f1, f2, f3⟩ := run_plus_cls h3
          obtain ⟨given, r2, g1, g2, _⟩ := (run_nameRe name (plain_no_dot h) _ _).1 h4
          refine ⟨c, kw, bl, given, r2, ?_, by simpa using hd, e2, hb, f2, g2⟩
          have e1' : rest = kw ++ r1 := e1
          have f1' := f1.text
          simp only [adv] at f1'
          simp only at hr
          rw [hr, e1', f1', g1]
          simp
  · rintro ⟨c, kw, bl, given, rest, e, hc, hk, hb, hbs, hg⟩
    refine ⟨adv (adv (adv (Model.Regex.St.next ⟨0, line, []⟩ (kw ++ bl ++ given ++ rest)) kw (bl ++ (given ++ rest))) bl (given ++ rest)) given rest,
      .seq (.cls (c := c) e (by simpa using hc)) ?_⟩
    refine (run_ilits _ (by decide) _ _ _).2 ⟨kw, bl ++ (given ++ rest), by simp [Model.Regex.St.next], hk, ?_⟩
    refine .seq (plus_cls_run bl _ (given ++ rest) hb rfl hbs) ?_
    exact (run_nameRe name (plain_no_dot h) _ _).2 ⟨given, rest, rfl, hg, rfl⟩

theorem defines_resembles {name line : Str} (h : Defines name line) : Resembles name line := by
  obtain ⟨kw, bl, given, rest, e, h1, h2, h3, h4, _⟩ := h
  exact ⟨'.', kw, bl, given, rest, e, by decide, h1, h2, h3, h4⟩

/-! ### Searching a library -/

theorem scan_skip (name : Str) (raised : Bool) (pre rest : List Str) (h : ∀ l ∈ pre, (exec (findRe name) l).isSome = false) :
    scan name raised (pre ++ rest) = scan name raised rest := by
  induction pre with
  | nil => rfl
  | cons l pre ih =>
    rw [List.cons_append, scan, if_neg (by rw [h l (by simp)]; simp), ih (fun x hx => h x (by simp [hx]))]

/-- C80: the first definition of the name in a library is the one found, as a whole: its .SUBCKT line, what is inside (with nested
definitions and control sections), and its closing line; whatever comes after it does not matter. -/
theorem C80_library_found (name text : Str) (hn : PlainName name) (pre post : List Str) (head tail : Str) (body : List Block)
    (hl : (Model.Lines.separateLines text).lines = pre ++ head :: (linesOf body ++ tail :: post)) (hp : ∀ l ∈ pre, ¬ Resembles name l)
    (hd : Defines name head) (hb : allOk body) (ht : kindOf tail = some .closing) :
    findInLib name (some text) = .ok (some (.prim head :: (itemsOf body ++ [.prim tail]))) := by
  unfold findInLib
  simp only [hl]
  rw [scan_skip]
  · rw [scan, if_pos ((matches_iff name head hn).2 (defines_resembles hd)), Props.NetTree.addLines_blocks _ _ _ hb]
    unfold addLines
    unfold kindOf at ht
    cases hc : Model.Netlist.lineCommand tail with
    | none => rw [hc] at ht; simp at ht
    | some cmd =>
      rw [hc] at ht
      simp only [Option.map_some, Option.some.injEq] at ht
      simp only [ht, if_true]
      simp
  · intro l h
    have := mt (matches_iff name l hn).1 (hp l h)
    simpa using this

/-- C80: what is found begins with a line that resembles a definition of the name, the first one of the file, and is the text of the
file from there on up to a closing line. -/
theorem C80_library_sound (name text : Str) (hn : PlainName name) (items : List Item) (h : findInLib name (some text) = .ok (some items)) :
    ∃ pre head rest, (Model.Lines.separateLines text).lines = pre ++ head :: rest ∧ Resembles name head ∧ (∀ l ∈ pre, ¬ Resembles name l) ∧
      ((∀ l ∈ rest, kindOf l ≠ some .control) → ∃ post, raws items ++ post = (head :: rest).flatten) := by
  unfold findInLib at h
  simp only at h
  generalize (Model.Lines.separateLines text).raised = raised at h
  generalize (Model.Lines.separateLines text).lines = ls at h
  induction ls with
  | nil => rw [scan] at h; split_ifs at h <;> simp at h
  | cons l ls ih =>
    rw [scan] at h
    by_cases hm : (exec (findRe name) l).isSome = true
    · rw [if_pos hm] at h
      refine ⟨[], l, ls, rfl, (matches_iff name l hn).1 hm, by simp, fun hc => ?_⟩
      cases ha : addLines [.prim l] [] none ls with
      | error e => rw [ha] at h; simp at h
      | ok r =>
        rw [ha] at h
        simp only at h
        by_cases hf : r.finished = true
        · rw [if_pos hf] at h
          simp only [Except.ok.injEq, Option.some.injEq] at h
          have := Props.NetTree.nothing_lost_from r hf ls _ _ hc ha
          refine ⟨r.rest.flatten, ?_⟩
          rw [← h, this]
          simp [raws, Props.NetTree.raw]
        · rw [if_neg hf] at h
          split_ifs at h <;> simp at h
    · rw [if_neg hm] at h
      obtain ⟨pre, head, rest, e, h1, h2, h3⟩ := ih h
      refine ⟨l :: pre, head, rest, by rw [e]; rfl, h1, ?_, h3⟩
      intro x hx
      rcases List.mem_cons.1 hx with rfl | hx
      · exact mt (matches_iff name x hn).2 hm
      · exact h2 x hx

/-- C80: nothing is found in a library in which no line resembles a definition (of a text with matching brackets). -/
theorem C80_library_nothing (name text : Str) (hn : PlainName name) (hr : (Model.Lines.separateLines text).raised = false)
    (h : ∀ l ∈ (Model.Lines.separateLines text).lines, ¬ Resembles name l) : findInLib name (some text) = .ok none := by
  unfold findInLib
  simp only
  have := scan_skip name (Model.Lines.separateLines text).raised (Model.Lines.separateLines text).lines [] (by
    intro l hl
    have := mt (matches_iff name l hn).1 (h l hl)
    simpa using this)
  rw [List.append_nil] at this
  rw [this, scan, hr]
  rfl

/-! ### The file name of a .LIB or .INCLUDE line -/

theorem same_map {a b : Str} (h : Same a b) (hb : ∀ c ∈ b, c.toUpper = c) : a.map Char.toUpper = b := by
  unfold Same at h
  induction h with
  | nil => rfl
  | @cons c d a b h1 _ ih => rw [List.map_cons, ih (fun x hx => hb x (by simp [hx])), h1, hb d (by simp)]

theorem ilits_stop (c : Char) (cs : Str) (r : Re) (k : RSt → Option RSt) (s : RSt) (h : ∀ d, s.rest.head? = some d → ¬ (d = c ∨ d.toUpper = c)) :
    go (ilits (c :: cs) r) k s = none := by
  simp only [ilits]
  rw [Props.LogFile.go_seq]
  cases hs : s.rest with
  | nil => simp only [go, hs]
  | cons d t =>
    simp only [go, hs]
    rw [if_neg]
    simpa using h d (by rw [hs]; rfl)

theorem lazy_cls (p : Char → Bool) (k : RSt → Option RSt) (x : RSt) : ∀ (f r : Str) (n : Nat) (s : RSt), s.rest = f ++ r → (∀ c ∈ f, p c = true) → f.length ≤ n →
    (∀ a b, f = a ++ b → b ≠ [] → k (adv s a (b ++ r)) = none) → k (adv s f r) = some x → less (go (.cls p)) k n s = some x := by
  intro f
  induction f with
  | nil =>
    intro r n s hs _ _ _ hx
    rw [show r = s.rest by simpa using hs.symm, adv_nil] at hx
    cases n with
    | zero => exact hx
    | succ n => simp only [less]; rw [hx]; rfl
  | cons c f ih =>
    intro r n s hs hp hn hk hx
    cases n with
    | zero => simp at hn
    | succ n =>
      have hs' : s.rest = c :: (f ++ r) := hs
      have h0 := hk [] (c :: f) rfl (by simp)
      rw [show (c :: f) ++ r = s.rest from hs.symm, adv_nil] at h0
      simp only [less]
      rw [h0, Option.none_or]
      simp only [go, hs', hp c (by simp), if_true]
      rw [if_pos (by simp [Model.Regex.St.next])]
      refine ih r n (s.next (f ++ r)) rfl (fun d hd => hp d (by simp [hd])) (by simpa using hn) ?_ ?_
      · intro a b e hb
        have := hk (c :: a) b (by rw [e]; rfl) hb
        rw [next_adv s c, Lemmas.Regex.adv_adv]
        exact this
      · rw [next_adv s c, Lemmas.Regex.adv_adv]
        exact hx

theorem blanks_inside (a rest z : Str) (ha : ∀ c ∈ a, isSpace c = true) : ∀ b : Str, (∃ c ∈ b, isSpace c = false) → a ++ rest = b ++ z →
    ∃ c ∈ b, rest.head? = some c := by
  induction a with
  | nil =>
    intro b hb e
    cases b with
    | nil => simp at hb
    | cons d b => exact ⟨d, by simp, by rw [show rest = d :: (b ++ z) from e]; rfl⟩
  | cons x a ih =>
    intro b hb e
    cases b with
    | nil => simp at hb
    | cons d b =>
      simp only [List.cons_append, List.cons.injEq] at e
      obtain ⟨c, hc, hs⟩ := hb
      rcases List.mem_cons.1 hc with rfl | hc
      · have := ha x (by simp)
        rw [e.1, hs] at this
        exact absurd this (by simp)
      · obtain ⟨c', h1, h2⟩ := ih (fun y hy => ha y (by simp [hy])) b ⟨c, hc, hs⟩ e.2
        exact ⟨c', by simp [h1], h2⟩

/-- what follows the file name -/
def tailRe : Re := .seq (.star sp) (.seq (opt (.seq (.cls (fun c => c = ';' || c = '*')) (.star dot))) .eol)

theorem tail_ok (s : RSt) (after comment eol : Str) (hs : s.rest = after ++ comment ++ eol) (ha : ∀ c ∈ after, isSpace c = true)
    (hc : comment = [] ∨ ∃ c text, comment = c :: text ∧ (c = ';' ∨ c = '*') ∧ '\n' ∉ text) (he : eol = [] ∨ eol = ['\n']) :
    ∃ x, go tailRe some s = some x ∧ x.caps = s.caps := by
  unfold tailRe
  rw [Props.LogFile.go_seq]
  rcases hc with rfl | ⟨c, text, rfl, hc, ht⟩
  · refine ⟨adv s (after ++ eol) [], ?_, rfl⟩
    refine go_star isSpace _ s (after ++ eol) [] (by rw [hs]; simp) ?_ (by simp) _ ?_
    · intro c h
      rcases List.mem_append.1 h with h | h
      · exact ha c h
      · rcases he with rfl | rfl
        · simp at h
        · rw [List.mem_singleton] at h; subst h; rfl
    · rw [Props.LogFile.go_seq]
      unfold opt
      rw [Props.LogFile.go_alt, Props.LogFile.go_seq]
      simp [go, adv]
  · refine ⟨adv (adv (adv s after (c :: (text ++ eol))) [c] (text ++ eol)) text eol, ?_, rfl⟩
    refine go_star isSpace _ s after (c :: (text ++ eol)) (by rw [hs]; simp) ha ?_ _ ?_
    · intro d hd
      have : d = c := by simpa using hd.symm
      subst this
      rcases hc with rfl | rfl <;> rfl
    · rw [Props.LogFile.go_seq]
      unfold opt
      rw [Props.LogFile.go_alt, Props.LogFile.go_seq]
      have h1 : go (.cls (fun c => c = ';' || c = '*')) (go (.star dot) (go .eol some)) (adv s after (c :: (text ++ eol))) =
          go (.star dot) (go .eol some) (adv (adv s after (c :: (text ++ eol))) [c] (text ++ eol)) := by
        conv_lhs => unfold go
        have : (adv s after (c :: (text ++ eol))).rest = c :: (text ++ eol) := rfl
        rw [this]
        simp only
        rw [if_pos (by simpa using hc)]
        rfl
      rw [h1]
      have h2 : go (.star dot) (go .eol some) (adv (adv s after (c :: (text ++ eol))) [c] (text ++ eol)) =
          some (adv (adv (adv s after (c :: (text ++ eol))) [c] (text ++ eol)) text eol) := by
        refine go_star (fun c => c ≠ '\n') _ _ text eol rfl ?_ ?_ _ ?_
        · intro d hd
          simp only [ne_eq, decide_eq_true_eq]
          rintro rfl
          exact ht hd
        · intro d hd
          rcases he with rfl | rfl
          · simp at hd
          · have : d = '\n' := by simpa using hd.symm
            subst this
            rfl
        · simp only [go]
          rw [if_pos (by rcases he with rfl | rfl <;> simp [adv])]
      rw [h2]
      rfl

theorem tail_none (s : RSt) (b z : Str) (hs : s.rest = b ++ z) (h1 : ∃ c ∈ b, isSpace c = false) (h2 : ∀ c ∈ b, c ≠ ';' ∧ c ≠ '*' ∧ c ≠ '\n') :
    go tailRe some s = none := by
  refine go_none _ _ _ ?_
  intro t ht
  exfalso
  unfold tailRe at ht
  cases ht with
  | seq r1 r2 =>
    obtain ⟨a, e1, e2, _⟩ := run_star_cls r1
    have ht := e1.text
    rw [hs] at ht
    obtain ⟨c, hc, hh⟩ := blanks_inside a _ z e2 b h1 ht.symm
    have hcc := h2 c hc
    cases r2 with
    | seq r3 r4 =>
      unfold opt at r3
      cases r3 with
      | left r3 =>
        cases r3 with
        | seq r5 _ =>
          cases r5 with
          | @cls _ _ d rest hr hd =>
            rw [hr] at hh
            have : d = c := by simpa using hh
            subst this
            simp only [Bool.or_eq_true, decide_eq_true_eq] at hd
            rcases hd with hd | hd
            · exact hcc.1 hd
            · exact hcc.2.1 hd
      | right r3 =>
        cases r3
        cases r4 with
        | eol he =>
          rcases he with he | he
          · rw [he] at hh; simp at hh
          · rw [he] at hh
            exact hcc.2.2 (by simpa using hh.symm)

/-- C80: the file of a .LIB, .INC or .INCLUDE line is its text without the blanks and the comment behind it. -/
theorem C80_file_name (line file : Str) (h : Names line file) : libName line = some file := by
  obtain ⟨⟨kw, blanks, after, comment, eol, e, hkw, hb, hsp, hc, he⟩, hf0, hf, hh, hl⟩ := h
  have hbl : ∀ x ∈ blanks, isSpace x = true := fun x hx => hsp x (by simp [hx])
  have haf : ∀ x ∈ after, isSpace x = true := fun x hx => hsp x (by simp [hx])
  obtain ⟨c, f, rfl⟩ := List.exists_cons_of_ne_nil hf0
  -- after the key word
  have key : ∀ s : RSt, s.rest = blanks ++ (c :: f ++ after ++ comment ++ eol) → s.caps = [] →
      ∃ x, go (.seq (plus sp) (.seq (.grp .value (.seq dot (.lazy dot))) tailRe)) some s = some x ∧ x.get .value = some (s.pos + blanks.length, c :: f) := by
    intro s hs hcap
    obtain ⟨x, hx1, hx2⟩ := tail_ok (Model.Regex.St.close .value (adv s blanks (c :: f ++ after ++ comment ++ eol))
      (adv (adv (adv s blanks (c :: f ++ after ++ comment ++ eol)) [c] (f ++ after ++ comment ++ eol)) f (after ++ comment ++ eol))) after comment eol rfl haf hc he
    refine ⟨x, ?_, ?_⟩
    · rw [Props.LogFile.go_seq]
      refine go_plus isSpace _ s blanks _ hb hs hbl ?_ _ ?_
      · intro d hd
        exact hh d (by simpa using hd)
      · rw [Props.LogFile.go_seq, Props.LogFile.go_grp, Props.LogFile.go_seq]
        have h1 : ∀ k : RSt → Option RSt, go dot k (adv s blanks (c :: f ++ after ++ comment ++ eol)) =
            k (adv (adv s blanks (c :: f ++ after ++ comment ++ eol)) [c] (f ++ after ++ comment ++ eol)) := by
          intro k
          unfold dot
          conv_lhs => unfold go
          have : (adv s blanks (c :: f ++ after ++ comment ++ eol)).rest = c :: (f ++ after ++ comment ++ eol) := rfl
          rw [this]
          simp only
          rw [if_pos (by simpa using (hf c (by simp)).2.2)]
          rfl
        rw [h1]
        conv_lhs => unfold go
        refine lazy_cls (fun c => c ≠ '\n') _ x f (after ++ comment ++ eol) _ _ (by simp [adv]) ?_ (by simp [adv]) ?_ hx1
        · intro d hd
          simpa using (hf d (by simp [hd])).2.2
        · intro a b eab hb0
          refine tail_none _ b (after ++ comment ++ eol) rfl ?_ ?_
          · obtain ⟨b', d, rfl⟩ := List.eq_nil_or_concat b |>.resolve_left hb0
            refine ⟨d, by simp, hl d ?_⟩
            rw [eab, List.concat_eq_append, ← List.append_assoc, ← List.cons_append]
            exact List.getLast?_concat
          · intro d hd
            exact hf d (by rw [eab]; simp [hd])
    · have hcaps := hx2
      rw [close_text .value (a := c :: f)] at hcaps
      · unfold Model.Regex.St.get
        rw [hcaps]
        simp [adv]
      · rw [Lemmas.Regex.adv_adv]
        exact ⟨by simp [adv], by simp [adv]⟩
  unfold libName exec
  have fold : libRe = .seq (lit '.') (.seq (.alt (ilits "LIB".toList .nil) (.seq (ilits "INC".toList .nil) (opt (ilits "LUDE".toList .nil))))
    (.seq (plus sp) (.seq (.grp .value (.seq dot (.lazy dot))) tailRe))) := rfl
  generalize hK : go (.seq (plus sp) (.seq (.grp .value (.seq dot (.lazy dot))) tailRe)) some = K at key
  have start : go libRe some ⟨0, line, []⟩ = go (.alt (ilits "LIB".toList .nil) (.seq (ilits "INC".toList .nil) (opt (ilits "LUDE".toList .nil)))) K
      (Model.Regex.St.next ⟨0, line, []⟩ (kw ++ blanks ++ (c :: f) ++ after ++ comment ++ eol)) := by
    rw [fold, Props.LogFile.go_seq, ← hK]
    unfold lit
    conv_lhs => unfold go
    simp only [e]
    simp [Props.LogFile.go_seq]
  rw [start, Props.LogFile.go_alt]
  have restEq : ∀ k : Str, k ++ blanks ++ (c :: f) ++ after ++ comment ++ eol = k ++ (blanks ++ (c :: f ++ after ++ comment ++ eol)) := by
    intro k; simp
  have nb : ∀ d, blanks.head? = some d → isSpace d = true := by
    intro d hd
    obtain ⟨y, ys, rfl⟩ := List.exists_cons_of_ne_nil hb
    have : y = d := by simpa using hd
    subst this
    exact hbl y (by simp)
  have fin : ∀ x : RSt, (∃ p, x.get .value = some (p, c :: f)) → (((some x).bind (fun m => Model.Regex.St.get m .value)).map Prod.snd) = some (c :: f) := by
    rintro x ⟨p, hp⟩
    simp [hp]
  have incStart : ∀ (n : Str) (rest : Str) (s : RSt), s.rest = n ++ rest → n.map Char.toUpper = "INC".toList → go (ilits "LIB".toList .nil) K s = none := by
    intro n rest s hs hn
    have : "LIB".toList = 'L' :: 'I' :: ['B'] := rfl
    rw [this]
    refine ilits_stop _ _ _ _ _ ?_
    intro d hd
    cases n with
    | nil => exact absurd hn (by decide)
    | cons y n =>
      rw [hs] at hd
      have hy : y = d := by simpa using hd
      subst hy
      have : y.toUpper = 'I' := by
        have := congrArg List.head? hn
        simpa using this
      rintro (h | h)
      · rw [h] at this; exact absurd this (by decide)
      · rw [this] at h; exact absurd h (by decide)
  have lude : ∀ s : RSt, s.rest = blanks ++ (c :: f ++ after ++ comment ++ eol) → go (ilits "LUDE".toList .nil) K s = none := by
    intro s hs
    have : "LUDE".toList = 'L' :: ['U', 'D', 'E'] := rfl
    rw [this]
    refine ilits_stop _ _ _ _ _ ?_
    intro d hd
    obtain ⟨y, ys, rfl⟩ := List.exists_cons_of_ne_nil hb
    rw [hs] at hd
    have hy : y = d := by simpa using hd
    subst hy
    have hsp' := hbl y (by simp)
    rintro (h | h)
    · rw [h] at hsp'; exact absurd hsp' (by decide)
    · by_cases hs128 : y.toNat < 128
      · revert h hsp'
        refine Lemmas.PyStr.ascii_ind (P := fun y => isSpace y = true → y.toUpper = 'L' → False) ?_ y hs128
        decide +kernel
      · rw [Lemmas.PyStr.toUpper_big y (by omega)] at h
        rw [h] at hsp'; exact absurd hsp' (by decide)
  rcases hkw with hk | hk | hk
  · have hm := same_map hk (by decide)
    rw [Props.LogFile.go_ilits _ _ _ kw _ (blanks ++ (c :: f ++ after ++ comment ++ eol)) hm (restEq kw)]
    obtain ⟨x, hx1, hx2⟩ := key (adv (Model.Regex.St.next ⟨0, line, []⟩ (kw ++ blanks ++ (c :: f) ++ after ++ comment ++ eol)) kw (blanks ++ (c :: f ++ after ++ comment ++ eol))) rfl rfl
    rw [show go Re.nil K _ = K _ from rfl, hx1, Option.some_or]
    exact fin x ⟨_, hx2⟩
  · have hm := same_map hk (by decide)
    rw [incStart kw _ _ (restEq kw) hm, Option.none_or, Props.LogFile.go_seq,
      Props.LogFile.go_ilits _ _ _ kw _ (blanks ++ (c :: f ++ after ++ comment ++ eol)) hm (restEq kw)]
    obtain ⟨x, hx1, hx2⟩ := key (adv (Model.Regex.St.next ⟨0, line, []⟩ (kw ++ blanks ++ (c :: f) ++ after ++ comment ++ eol)) kw (blanks ++ (c :: f ++ after ++ comment ++ eol))) rfl rfl
    rw [show ∀ k (s : RSt), go Re.nil k s = k s from fun _ _ => rfl]
    unfold opt
    rw [Props.LogFile.go_alt, lude _ rfl, Option.none_or, show go Re.nil K _ = K _ from rfl, hx1]
    exact fin x ⟨_, hx2⟩
  · have hm := same_map hk (by decide)
    have hsplit : ∃ a b, kw = a ++ b ∧ a.map Char.toUpper = "INC".toList ∧ b.map Char.toUpper = "LUDE".toList :=
      ⟨kw.take 3, kw.drop 3, (List.take_append_drop 3 kw).symm, by rw [List.map_take, hm]; rfl, by rw [List.map_drop, hm]; rfl⟩
    obtain ⟨a, b, rfl, ha, hb'⟩ := hsplit
    have r2 : (a ++ b) ++ blanks ++ (c :: f) ++ after ++ comment ++ eol = a ++ (b ++ (blanks ++ (c :: f ++ after ++ comment ++ eol))) := by simp
    rw [incStart a _ _ r2 ha, Option.none_or, Props.LogFile.go_seq, Props.LogFile.go_ilits _ _ _ a _ _ ha r2]
    rw [show ∀ k (s : RSt), go Re.nil k s = k s from fun _ _ => rfl]
    unfold opt
    rw [Props.LogFile.go_alt, Props.LogFile.go_ilits _ _ _ b _ (blanks ++ (c :: f ++ after ++ comment ++ eol)) hb' rfl]
    obtain ⟨x, hx1, hx2⟩ := key (adv (adv (Model.Regex.St.next ⟨0, line, []⟩ (a ++ b ++ blanks ++ (c :: f) ++ after ++ comment ++ eol)) a
      (b ++ (blanks ++ (c :: f ++ after ++ comment ++ eol)))) b (blanks ++ (c :: f ++ after ++ comment ++ eol))) rfl rfl
    rw [show go Re.nil K _ = K _ from rfl, hx1, Option.some_or]
    exact fin x ⟨_, hx2⟩

/-! ### The name of a definition -/

theorem head_run (w : WordClass) (kw blanks name rest : Str) (hk : Same kw "SUBCKT".toList) (hb : blanks ≠ [])
    (hs : ∀ x ∈ blanks, isSpace x = true) (hn0 : name ≠ []) (hn : ∀ x ∈ name, w.word x = true ∨ x = '.')
    (hr : ∀ x, rest.head? = some x → w.word x = false ∧ x ≠ '.') :
    exec (headRe w) ('.' :: (kw ++ blanks ++ name ++ rest)) = some (Model.Regex.St.close .designator
      (adv (adv (Model.Regex.St.next ⟨0, '.' :: (kw ++ blanks ++ name ++ rest), []⟩ (kw ++ blanks ++ name ++ rest)) kw (blanks ++ (name ++ rest))) blanks (name ++ rest))
      (adv (adv (adv (Model.Regex.St.next ⟨0, '.' :: (kw ++ blanks ++ name ++ rest), []⟩ (kw ++ blanks ++ name ++ rest)) kw (blanks ++ (name ++ rest))) blanks (name ++ rest)) name rest)) := by
  have hw : ∀ x ∈ name, isSpace x = false := by
    intro x hx
    rcases hn x hx with h | rfl
    · exact (w.not x h).1
    · rfl
  unfold exec headRe clauseRe
  rw [Props.LogFile.go_seq]
  unfold dot
  conv_lhs => unfold go
  simp only
  rw [if_pos (by decide), Props.LogFile.go_ilits _ _ _ kw _ (blanks ++ (name ++ rest)) (same_map hk (by decide)) (by simp [Model.Regex.St.next]), Props.LogFile.go_seq]
  refine go_plus isSpace _ _ blanks (name ++ rest) hb rfl hs ?_ _ ?_
  · intro x hx
    obtain ⟨y, ys, rfl⟩ := List.exists_cons_of_ne_nil hn0
    have : y = x := by simpa using hx
    subst this
    exact hw y (by simp)
  · rw [Props.LogFile.go_grp]
    refine go_plus (fun c => w.word c || c = '.') _ _ name rest hn0 rfl ?_ ?_ _ rfl
    · intro x hx
      simpa using hn x hx
    · intro x hx
      simpa using hr x hx

/-- C80: a sub-circuit that is part of the netlist has the name written in its .SUBCKT line, in that spelling, if the name is made of letters,
digits, underscores and dots. -/
theorem C80_name (w : WordClass) (kw blanks name rest : Str) (items : List Item) (hk : Same kw "SUBCKT".toList) (hb : blanks ≠ [])
    (hs : ∀ x ∈ blanks, isSpace x = true) (hn0 : name ≠ []) (hn : ∀ x ∈ name, w.word x = true ∨ x = '.')
    (hr : ∀ x, rest.head? = some x → w.word x = false ∧ x ≠ '.') :
    nameOf w (.prim ('.' :: (kw ++ blanks ++ name ++ rest)) :: items) = some name := by
  have run := head_run w kw blanks name rest hk hb hs hn0 hn hr
  unfold nameOf
  simp only [itemText, run, Option.bind_some]
  unfold Model.Regex.St.get
  rw [close_text .designator (a := name) ⟨rfl, rfl⟩]
  simp

/-- C80: comments before the .SUBCKT line do not matter for the name, if a blank follows their star (`*SUBCKT a` would be taken for the definition line). -/
theorem C80_name_after_comments (w : WordClass) (kw blanks name rest : Str) (comments : List Str) (items : List Item) (hk : Same kw "SUBCKT".toList)
    (hb : blanks ≠ []) (hs : ∀ x ∈ blanks, isSpace x = true) (hn0 : name ≠ []) (hn : ∀ x ∈ name, w.word x = true ∨ x = '.')
    (hr : ∀ x, rest.head? = some x → w.word x = false ∧ x ≠ '.') (hc : ∀ c ∈ comments, ∃ t, c = '*' :: ' ' :: t) :
    nameOf w (comments.map .text ++ .prim ('.' :: (kw ++ blanks ++ name ++ rest)) :: items) = some name := by
  induction comments with
  | nil => exact C80_name w kw blanks name rest items hk hb hs hn0 hn hr
  | cons c cs ih =>
    obtain ⟨t, rfl⟩ := hc c (by simp)
    rw [List.map_cons, List.cons_append]
    unfold nameOf
    have hx : exec (headRe w) (itemText (.text ('*' :: ' ' :: t))) = none := by
      rfl
    rw [hx]
    exact ih (fun x hx => hc x (by simp [hx]))

/-! ### The order of the search -/

/-- A place where the search looks: a sub-circuit of the netlist or of an included file, or a library file. -/
inductive Source where
  | circ (items : List Item)
  | lib (dir file : Str)

/-- The libraries named by the lines of a netlist file, in order. -/
def libsOf (dir : Str) (es : List Elem) : List Source := es.filterMap (fun e => (e.line?.bind libName).map (Source.lib dir))

mutual
/-- An included file stands for its own sub-circuits and included files, followed by the libraries it names. -/
def sourcesE : Elem → List Source
  | .circ items => [.circ items]
  | .incl _ true dir file => sourcesL file ++ libsOf dir file
  | .incl _ false _ _ => []
  | .text _ => []
  | .ctrl => []
def sourcesL : List Elem → List Source
  | [] => []
  | e :: es => sourcesE e ++ sourcesL es
end

/-- All places, in the order in which they are searched: the circuits from the inside to the outside, and then the libraries of the netlist. -/
def sources (dir : Str) (scopes : List (List Elem)) : List Source := scopes.flatMap sourcesL ++ libsOf dir (scopes.getLast?.getD [])

/-- What one place has to offer. -/
def offers (w : WordClass) (libs : Libs) (name : Str) : Source → Except Err (Option (List Item))
  | .circ items => .ok (if nameOf w items = some name then some items else none)
  | .lib dir file => match libs dir file with
    | none => .ok none
    | some text => findInLib name text

/-- The first place that offers something (or raises). -/
def first {α β : Type} (f : α → Except Err (Option β)) : List α → Except Err (Option β)
  | [] => .ok none
  | a :: as => match f a with
    | .error e => .error e
    | .ok (some b) => .ok (some b)
    | .ok none => first f as

theorem first_append {α β : Type} (f : α → Except Err (Option β)) (a b : List α) : first f (a ++ b) = (match first f a with
    | .error e => .error e
    | .ok (some x) => .ok (some x)
    | .ok none => first f b) := by
  induction a with
  | nil => rfl
  | cons x a ih =>
    rw [List.cons_append, first, first]
    cases f x with
    | error e => rfl
    | ok o => cases o with
      | none => exact ih
      | some v => rfl

theorem findLibs_eq (w : WordClass) (libs : Libs) (name dir : Str) (es : List Elem) : findLibs libs name dir es = first (offers w libs name) (libsOf dir es) := by
  induction es with
  | nil => rfl
  | cons e es ih =>
    rw [findLibs]
    unfold libsOf at *
    rw [List.filterMap_cons]
    cases h : e.line?.bind libName with
    | none => simpa using ih
    | some n =>
      simp only [Option.bind_some, Option.map_some]
      rw [first, offers]
      cases libs dir n with
      | none => simpa using ih
      | some text =>
        simp only
        cases findInLib name text with
        | error x => rfl
        | ok o => cases o with
          | none => simpa using ih
          | some v => rfl

mutual
theorem findElem_eq (w : WordClass) (libs : Libs) (name : Str) : ∀ e : Elem, findElem w libs name e = first (offers w libs name) (sourcesE e)
  | .circ items => by
    rw [findElem, sourcesE, first, offers]
    split_ifs <;> rfl
  | .incl l true dir file => by
    rw [findElem, sourcesE, first_append, findElems_eq w libs name file, findLibs_eq w]
    cases first (offers w libs name) (sourcesL file) with
    | error e => rfl
    | ok o => cases o <;> rfl
  | .incl l false dir file => by rw [findElem, sourcesE]; rfl
  | .text s => by rw [findElem, sourcesE]; rfl
  | .ctrl => by rw [findElem, sourcesE]; rfl
theorem findElems_eq (w : WordClass) (libs : Libs) (name : Str) : ∀ es : List Elem, findElems w libs name es = first (offers w libs name) (sourcesL es)
  | [] => by rw [findElems, sourcesL]; rfl
  | e :: es => by
    rw [findElems, sourcesL, first_append, findElem_eq w libs name e, findElems_eq w libs name es]
    cases first (offers w libs name) (sourcesE e) with
    | error e => rfl
    | ok o => cases o <;> rfl
end

/-- C80: get_subcircuit_named gives what the first place offers, in this order: the circuits from the inside to the outside, each with its
sub-circuits and included files in the order of its lines, and then the libraries that the netlist names. -/
theorem C80_order (w : WordClass) (libs : Libs) (name dir : Str) (scopes : List (List Elem)) (h : scopes ≠ []) :
    findNamed w libs name dir scopes = first (offers w libs name) (sources dir scopes) := by
  unfold sources
  induction scopes with
  | nil => exact absurd rfl h
  | cons c cs ih =>
    cases cs with
    | nil =>
      rw [findNamed, List.flatMap_cons, List.flatMap_nil, List.append_nil, first_append, findElems_eq, findLibs_eq w]
      cases first (offers w libs name) (sourcesL c) with
      | error e => rfl
      | ok o => cases o <;> rfl
    | cons d cs =>
      rw [findNamed, List.flatMap_cons, List.append_assoc, first_append, findElems_eq, ih (by simp), List.getLast?_cons_cons]
      cases first (offers w libs name) (sourcesL c) with
      | error e => rfl
      | ok o => cases o <;> rfl

/-- C80: a circuit's own definition is the one that its instances get, whatever is defined around it and in libraries. -/
theorem C80_own_definition (w : WordClass) (libs : Libs) (name dir : Str) (before after : List Elem) (items : List Item) (outer : List (List Elem))
    (hi : nameOf w items = some name) (hb : ∀ e ∈ before, ∀ s ∈ sourcesE e, ∃ i, s = .circ i ∧ nameOf w i ≠ some name) :
    findNamed w libs name dir ((before ++ .circ items :: after) :: outer) = .ok (some items) := by
  rw [C80_order _ _ _ _ _ (by simp)]
  unfold sources
  have app : ∀ a b : List Elem, sourcesL (a ++ b) = sourcesL a ++ sourcesL b := by
    intro a b
    induction a with
    | nil => rfl
    | cons x a ih => rw [List.cons_append, sourcesL, sourcesL, ih, List.append_assoc]
  have skip : ∀ l : List Source, (∀ s ∈ l, ∃ i, s = .circ i ∧ nameOf w i ≠ some name) → first (offers w libs name) l = .ok none := by
    intro l hl
    induction l with
    | nil => rfl
    | cons s l ih =>
      obtain ⟨i, rfl, hi⟩ := hl s (by simp)
      rw [first, offers, if_neg hi]
      exact ih (fun x hx => hl x (by simp [hx]))
  have mem : ∀ l : List Elem, ∀ s ∈ sourcesL l, ∃ e ∈ l, s ∈ sourcesE e := by
    intro l
    induction l with
    | nil => intro s hs; rw [sourcesL] at hs; simp at hs
    | cons x l ih =>
      intro s hs
      rw [sourcesL] at hs
      rcases List.mem_append.1 hs with h | h
      · exact ⟨x, by simp, h⟩
      · obtain ⟨e, h1, h2⟩ := ih s h
        exact ⟨e, by simp [h1], h2⟩
  rw [List.flatMap_cons, app, List.append_assoc, List.append_assoc, first_append, skip _ (by
    intro s hs
    obtain ⟨e, h1, h2⟩ := mem _ s hs
    exact hb e h1 s h2)]
  simp only
  rw [sourcesL, sourcesE, List.append_assoc, List.singleton_append, first, offers, if_pos hi]

/-- C80: with no included files, a definition anywhere in the netlist around the instance is preferred to all libraries: which one is found
does not depend on what the libraries contain. -/
theorem C80_netlist_first (w : WordClass) (libs libs' : Libs) (name dir : Str) (scopes : List (List Elem))
    (hd : ∃ c ∈ scopes, ∃ items, Elem.circ items ∈ c ∧ nameOf w items = some name)
    (hi : ∀ c ∈ scopes, ∀ l b d f, Elem.incl l b d f ∉ c) : findNamed w libs name dir scopes = findNamed w libs' name dir scopes ∧
      ∃ items, findNamed w libs name dir scopes = .ok (some items) ∧ nameOf w items = some name := by
  obtain ⟨c, hc, items, hm, hn⟩ := hd
  have hne : scopes ≠ [] := by rintro rfl; simp at hc
  rw [C80_order _ _ _ _ _ hne, C80_order _ _ _ _ _ hne]
  unfold sources
  have circs : ∀ l : List Elem, (∀ x b d f, Elem.incl x b d f ∉ l) → (∀ s ∈ sourcesL l, ∃ i, s = Source.circ i) ∧
      ∀ i, Elem.circ i ∈ l → Source.circ i ∈ sourcesL l := by
    intro l
    induction l with
    | nil => intro _; exact ⟨by intro s hs; rw [sourcesL] at hs; simp at hs, by simp⟩
    | cons x l ih =>
      intro h
      have h' := ih (fun y b d f hy => h y b d f (by simp [hy]))
      rw [sourcesL]
      cases x with
      | circ i =>
        rw [sourcesE]
        refine ⟨?_, ?_⟩
        · intro s hs
          rcases List.mem_append.1 hs with hs | hs
          · exact ⟨i, by simpa using hs⟩
          · exact h'.1 s hs
        · intro j hj
          rcases List.mem_cons.1 hj with hj | hj
          · rw [Elem.circ.injEq] at hj; subst hj; simp
          · exact List.mem_append_right _ (h'.2 j hj)
      | incl y b d f => exact absurd (List.mem_cons_self ..) (h y b d f)
      | text s =>
        rw [sourcesE, List.nil_append]
        exact ⟨h'.1, fun j hj => h'.2 j (by simpa using hj)⟩
      | ctrl =>
        rw [sourcesE, List.nil_append]
        exact ⟨h'.1, fun j hj => h'.2 j (by simpa using hj)⟩
  have main : ∀ l : List Source, (∀ s ∈ l, ∃ i, s = Source.circ i) → (∃ i, Source.circ i ∈ l ∧ nameOf w i = some name) →
      ∃ i, nameOf w i = some name ∧ ∀ libs : Libs, first (offers w libs name) l = .ok (some i) := by
    intro l
    induction l with
    | nil => rintro _ ⟨i, h, _⟩; simp at h
    | cons s l ih =>
      intro hl hx
      obtain ⟨j, rfl⟩ := hl s (by simp)
      by_cases hj : nameOf w j = some name
      · exact ⟨j, hj, fun libs => by rw [first, offers, if_pos hj]⟩
      · obtain ⟨i, h1, h2⟩ := hx
        have hil : Source.circ i ∈ l := by
          rcases List.mem_cons.1 h1 with h | h
          · rw [Source.circ.injEq] at h; subst h; exact absurd h2 hj
          · exact h
        obtain ⟨r, hr, hf⟩ := ih (fun s hs => hl s (by simp [hs])) ⟨i, hil, h2⟩
        exact ⟨r, hr, fun libs => by rw [first, offers, if_neg hj]; exact hf libs⟩
  obtain ⟨i, h1, h2⟩ := main (scopes.flatMap sourcesL) (by
      intro s hs
      obtain ⟨c', hc', hs'⟩ := List.mem_flatMap.1 hs
      exact (circs c' (hi c' hc')).1 s hs')
    ⟨items, List.mem_flatMap.2 ⟨c, hc, (circs c (hi c hc)).2 items hm⟩, hn⟩
  refine ⟨?_, i, ?_, h1⟩
  · rw [first_append, first_append, h2, h2]
  · rw [first_append, h2]

/-! ### Samples and limits -/

/-- How long what was found is, and its first line (Item has no decidable equality). -/
def shown (r : Except Err (Option (List Item))) : Option (Nat × Str) :=
  match r with
  | .ok (some (i :: is)) => some ((i :: is).length, itemText i)
  | _ => none

def amps : Str := "* library\n.subckt buf a b\nR1 a b 1\n.ends\n".toList ++ ".SubCkt amp in out\nR1 in out 1k\n.subckt inner x\nC1 x 0 1\n".toList ++
  ".ends\nX1 in inner\n.ends amp\n".toList

/-- A library with two definitions, one of them with a nested one. -/
theorem C80_sample : shown (findInLib "AMP".toList (some amps)) = some (5, ".SubCkt amp in out\n".toList) ∧
    shown (findInLib "BUF".toList (some amps)) = some (3, ".subckt buf a b\n".toList) ∧ libName ".LIB  my amps.lib  ; vendor\n".toList = some "my amps.lib".toList := by
  refine ⟨?_, ?_, ?_⟩ <;> decide +kernel

/-- The hypotheses of C80_library_found on that library. -/
theorem C80_sample_parts : PlainName "AMP".toList ∧ Defines "AMP".toList ".SubCkt amp in out\n".toList ∧ kindOf ".ends amp\n".toList = some .closing ∧
    (Model.Lines.separateLines amps).lines = ["* library\n", ".subckt buf a b\n", "R1 a b 1\n", ".ends\n"].map String.toList ++
      ".SubCkt amp in out\n".toList :: (linesOf [.line "R1 in out 1k\n".toList,
        .subckt ".subckt inner x\n".toList [.line "C1 x 0 1\n".toList] ".ends\n".toList, .line "X1 in inner\n".toList] ++ ".ends amp\n".toList :: []) := by
  refine ⟨⟨by decide, ?_⟩, ⟨"SubCkt".toList, " ".toList, "amp".toList, " in out\n".toList, rfl, ?_, by decide, by decide, ?_, ?_⟩, by decide +kernel, by decide +kernel⟩
  · intro c hc
    have : c = 'A' := by simpa using hc.symm
    subst this; rfl
  · unfold Same; repeat' constructor
  · unfold Same; repeat' constructor
  · intro c hc
    have : c = ' ' := by simpa using hc.symm
    subst this; rfl

/-- Limit: the name may be only the beginning of the name that is defined, and a definition that was turned into a comment counts too. -/
theorem C80_wrong_definition :
    shown (findInLib "amp".toList (some ".subckt amp2 a b\n.ends\n.subckt amp a b\n.ends\n".toList)) = some (2, ".subckt amp2 a b\n".toList) ∧
    shown (findInLib "amp".toList (some "*subckt amp a b\nR1 a b 5\n.ends\n.subckt amp a b\n.ends\n".toList)) = some (3, "*subckt amp a b\n".toList) := by
  refine ⟨?_, ?_⟩ <;> decide +kernel

/-- Limit: a definition that is not closed hides the rest of the library. -/
theorem C80_not_closed : shown (findInLib "amp".toList (some ".subckt ampx a b\n.subckt amp a b\n.ends\n".toList)) = none := by decide +kernel

/-- Limit: quotes and the section of a library are taken for a part of the file name. -/
theorem C80_quoted : libName ".include \"a.lib\"\n".toList = some "\"a.lib\"".toList ∧ libName ".lib a.lib tt\n".toList = some "a.lib tt".toList := by
  refine ⟨?_, ?_⟩ <;> decide +kernel

/-- Limits of the search in the netlist: the name is compared in its spelling, is cut at other characters than letters, digits, underscores and
dots, and libraries named inside a sub-circuit are not searched. -/
theorem C80_netlist_limits :
    shown (findNamed Props.CompLine.ascii (fun _ _ => none) "amp".toList [] [[.circ [.prim ".subckt AMP a b\n".toList]]]) = none ∧
    shown (findNamed Props.CompLine.ascii (fun _ _ => none) "amp-2".toList [] [[.circ [.prim ".subckt amp-2 a b\n".toList]]]) = none ∧
    shown (findNamed Props.CompLine.ascii (fun _ _ => some (some amps)) "amp".toList [] [[.text ".lib amps.lib\n".toList], []]) = none ∧
    shown (findNamed Props.CompLine.ascii (fun _ _ => some (some amps)) "amp".toList [] [[], [.text ".lib amps.lib\n".toList]]) =
      some (5, ".SubCkt amp in out\n".toList) := by
  refine ⟨?_, ?_, ?_, ?_⟩ <;> decide +kernel

/-- Limit: a library named by an included file comes before a definition of the netlist itself that follows the .INCLUDE line. -/
theorem C80_included_library_first :
    shown (findNamed Props.CompLine.ascii (fun _ _ => some (some amps)) "amp".toList []
      [[.incl ".inc a.inc\n".toList true [] [.text ".lib amps.lib\n".toList], .circ [.prim ".subckt amp a b\n".toList]]]) =
      some (5, ".SubCkt amp in out\n".toList) := by decide +kernel

end Props.SubFind
