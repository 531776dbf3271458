import Verif.Model.QspiceLog
import Verif.Spec.QspiceLog
import Verif.Lemmas.Regex
import Verif.Lemmas.PyStr
import Verif.Props.LogRead
import Verif.Props.SplitLine
import Verif.Props.Export
import Verif.Props.RawSteps
import Verif.Props.RawAscii
import Verif.Props.CompLine
/-
C77: QSPICE logs and their .meas files.
-/
namespace Props.QspiceLog
open Model.QspiceLog
open Model.Regex (Re G go exec plus)
open Model.PyStr (isSpace parseInt showNat)
open Model.CompLine (WordClass)
open Model.Export (fileLines group lits)
open Model.LogData (Name Dict lower)
open Model.LogRead (Steps qspiceStep put)
open Model.SplitLine (Val split)
open Spec.QspiceLog hiding Str
open Lemmas.Regex
open Props.LogRead (Tok column)

abbrev Str := List Char
abbrev RSt := Model.Regex.St
variable {V : Type}

theorem go_seq (a b : Re) (k : RSt → Option RSt) (s : RSt) : go (.seq a b) k s = go a (go b k) s := rfl
theorem go_grp (g : G) (a : Re) (k : RSt → Option RSt) (s : RSt) : go (.grp g a) k s = go a (fun t => k (Model.Regex.St.close g s t)) s := rfl

/-! ### Steps -/

theorem exec_step (lead n t b ps : Str) (hlead : ∀ c ∈ lead, c = ' ' ∨ c = '\t') (hn : n ≠ []) (hnd : ∀ c ∈ n, c.isDigit = true) (ht : t ≠ [])
    (htd : ∀ c ∈ t, c.isDigit = true) (hb : b ≠ []) (hbs : ∀ c ∈ b, c = ' ' ∨ c = '\t') (hps : ∀ c ∈ ps, c ≠ '\n') :
    ∃ x, exec stepRe (lead ++ (n ++ (" of ".toList ++ (t ++ (" steps:".toList ++ (b ++ (".step ".toList ++ (ps ++ ['\n'])))))))) = some x ∧
      group x .params = ps ∧ group x .number = n := by
  let r6 : Str := ps ++ ['\n']
  let r5 : Str := ".step ".toList ++ r6
  let r4 : Str := b ++ r5
  let r3 : Str := " steps:".toList ++ r4
  let r2 : Str := t ++ r3
  let r1 : Str := " of ".toList ++ r2
  let s00 : RSt := ⟨0, lead ++ (n ++ r1), []⟩
  let s0 : RSt := adv s00 lead (n ++ r1)
  let s1 := Model.Regex.St.close .number s0 (adv s0 n r1)
  let s2 := adv s1 " of ".toList r2
  let s3 := adv s2 t r3
  let s4 := adv s3 " steps:".toList r4
  let s5 := adv s4 b r5
  let s6 := adv s5 ".step ".toList r6
  let s7 := Model.Regex.St.close .params s6 (adv s6 ps ['\n'])
  have hc : s7.caps = [(.params, s6.pos, ps), (.number, s0.pos, n)] := by
    show (Model.Regex.G.params, s6.pos, s6.rest.take ((adv s6 ps ['\n']).pos - s6.pos)) :: s6.caps = _
    have e1 : s6.rest.take ((adv s6 ps ['\n']).pos - s6.pos) = ps := by simp [adv, s6, r6]
    have e2 : s6.caps = [(.number, s0.pos, n)] := by
      show [(Model.Regex.G.number, s0.pos, s0.rest.take ((adv s0 n r1).pos - s0.pos))] = _
      simp [adv, s0, s00]
    rw [e1, e2]
  refine ⟨s7, ?_, ?_, ?_⟩
  · unfold exec stepRe
    rw [go_seq]
    refine go_star _ _ s00 lead (n ++ r1) rfl (by intro c hc; rcases hlead c hc with rfl | rfl <;> decide) ?_ _ ?_
    · intro c hc
      obtain ⟨d, n', rfl⟩ := List.exists_cons_of_ne_nil hn
      simp at hc
      subst hc
      exact (Props.RawAscii.digit_space hnd d (by simp)).1
    unfold Model.RawSteps.stepQ
    show go _ _ s0 = _
    rw [go_seq, go_grp]
    refine go_plus _ _ s0 n r1 hn rfl hnd (by intro c hc; simp [r1] at hc; subst hc; decide) _ ?_
    show go _ _ s1 = _
    rw [Props.Export.go_lits _ _ _ s1 r2 rfl, go_seq]
    refine go_plus _ _ s2 t r3 ht rfl htd (by intro c hc; simp [r3] at hc; subst hc; decide) _ ?_
    rw [Props.Export.go_lits _ _ _ s3 r4 rfl, go_seq]
    refine go_plus _ _ s4 b r5 hb rfl (by intro c hc; rcases hbs c hc with rfl | rfl <;> decide) (by intro c hc; simp [r5] at hc; subst hc; decide) _ ?_
    rw [Props.Export.go_lits _ _ _ s5 r6 rfl, go_seq, go_grp]
    refine go_star _ _ s6 ps ['\n'] rfl (by intro c hc; simpa using hps c hc) (by intro c hc; simp at hc; subst hc; decide) _ ?_
    show (if s7.rest = [] ∨ s7.rest = ['\n'] then some s7 else none) = some s7
    exact if_pos (.inr rfl)
  · unfold group Model.Regex.St.get
    rw [hc]; rfl
  · unfold group Model.Regex.St.get
    rw [hc]; rfl

theorem exec_other (l : Str) (h : ¬ ".step ".toList <:+: l) : exec stepRe l = none := by
  unfold exec
  apply go_none
  intro t ht
  exfalso
  unfold stepRe at ht
  cases ht with
  | seq h0 h1 =>
  obtain ⟨a0, b0⟩ := run_between h0
  unfold Model.RawSteps.stepQ at h1
  cases h1 with
  | seq h1 h2 =>
    obtain ⟨a1, b1⟩ := run_between h1
    obtain ⟨u2, b2, h2⟩ := Props.Export.run_lits _ _ _ _ h2
    cases h2 with
    | seq h3 h4 =>
      obtain ⟨a3, b3⟩ := run_between h3
      obtain ⟨u4, b4, h4⟩ := Props.Export.run_lits _ _ _ _ h4
      cases h4 with
      | seq h5 h6 =>
        obtain ⟨a5, b5⟩ := run_between h5
        obtain ⟨u6, b6, _⟩ := Props.Export.run_lits _ _ _ _ h6
        have hb := ((((b0.trans b1).trans b2).trans b3).trans b4).trans b5
        have e : l = a0 ++ a1 ++ " of ".toList ++ a3 ++ " steps:".toList ++ a5 ++ (".step ".toList ++ u6.rest) := by
          rw [← b6.text]; exact hb.text
        exact h ⟨_, _, by rw [e, List.append_assoc]⟩

theorem infix_concat {p t : Str} (hp : p.getLast? ≠ some '\n') (hne : p ≠ []) (h : ¬ p <:+: t) : ¬ p <:+: t ++ ['\n'] := by
  rintro ⟨a, b, e⟩
  apply h
  rcases List.eq_nil_or_concat b with rfl | ⟨b', c, rfl⟩
  · exfalso
    have := congrArg List.getLast? e
    rw [List.append_nil, List.getLast?_concat, List.getLast?_append] at this
    cases hl : p.getLast? with
    | none => exact hne (List.getLast?_eq_none_iff.mp hl)
    | some x =>
      rw [hl] at this
      simp at this
      exact hp (by rw [hl, this])
  · refine ⟨a, b', ?_⟩
    rw [List.concat_eq_append, ← List.append_assoc] at e
    exact (List.append_inj' e rfl).1

theorem toks_no_eol (t0 : Tok) (toks : List Tok) (h : ∀ t ∈ t0 :: toks, t.Clean) : ∀ c ∈ t0.text ++ toks.flatMap (fun t => ' ' :: t.text), c ≠ '\n' := by
  intro c hc
  rcases List.mem_append.mp hc with hc | hc
  · exact (Props.LogRead.clean_text (h t0 (by simp)) c hc).2.2
  · obtain ⟨t, ht, hc⟩ := List.mem_flatMap.mp hc
    rcases List.mem_cons.mp hc with rfl | hc
    · decide
    · exact (Props.LogRead.clean_text (h t (by simp [ht])) c hc).2.2

/-- The loop over the lines of a log: with steps numbered on from the count it succeeds, otherwise it fails. -/
theorem steps_lines (conv : Str → V) : ∀ (ls : List LogLine) (s : Steps V), (∀ l ∈ ls, l.Ok) →
    (Numbered (s.count + 1) (stepsOf ls) → ∃ s', stepLines conv (ls.map (fun l => l.text ++ ['\n'])) s = .ok s' ∧ s'.count = s.count + (stepsOf ls).length ∧
      ∀ k, column s'.stepset k = column s.stepset k ++ (stepsOf ls).flatMap (fun p => Props.LogRead.assigned conv k p.2)) ∧
    (¬ Numbered (s.count + 1) (stepsOf ls) → stepLines conv (ls.map (fun l => l.text ++ ['\n'])) s = .error .assertion) := by
  intro ls
  induction ls with
  | nil => intro s _; exact ⟨fun _ => ⟨s, rfl, rfl, by simp [stepsOf]⟩, fun h => absurd trivial h⟩
  | cons l ls ih =>
    intro s h
    have hl := h l (by simp)
    have ht : ∀ x ∈ ls, x.Ok := fun x hx => h x (by simp [hx])
    rw [List.map_cons]
    unfold stepLines
    cases l with
    | other t =>
      rw [show (LogLine.other t).text = t from rfl, exec_other _ (infix_concat (by decide) (by decide) hl.2)]
      exact ih s ht
    | step lead n tot gap t0 toks =>
      obtain ⟨h1, ⟨h2, h3⟩, ⟨h4, h5⟩, ⟨h6, h7⟩, h8⟩ := hl
      have e : (LogLine.step lead n tot gap t0 toks).text ++ ['\n'] =
          lead ++ (n ++ (" of ".toList ++ (tot ++ (" steps:".toList ++ (gap ++ (".step ".toList ++ ((t0.text ++ toks.flatMap (fun t => ' ' :: t.text)) ++ ['\n']))))))) := by
        simp only [LogLine.text, List.append_assoc]
      obtain ⟨x, hx, hp, hn⟩ := exec_step lead n tot gap _ h1 h2 h3 h4 h5 h6 h7 (toks_no_eol t0 toks h8)
      rw [e, hx]
      simp only
      rw [hn, Props.RawAscii.parseInt_digits h2 h3, hp]
      simp only
      have hso : stepsOf (LogLine.step lead n tot gap t0 toks :: ls) = (n, t0 :: toks) :: stepsOf ls := rfl
      rw [hso]
      obtain ⟨q1, q2⟩ := Props.LogRead.C49_qspice_steps conv s (numeral n) t0 toks h8
      by_cases hk : numeral n = s.count + 1
      · obtain ⟨s', c1, c2, c3⟩ := q2 hk
        have hk' : ¬ ((s.count : Int) + 1 ≠ ((Nat.ofDigitChars 10 n 0 : Nat) : Int)) := by
          unfold numeral at hk; rw [hk]; simp
        rw [if_neg hk', Int.toNat_natCast]
        unfold numeral at c1
        rw [c1]
        simp only
        obtain ⟨i1, i2⟩ := ih s' ht
        have hc : s'.count = s.count + 1 := by rw [c2, hk]
        rw [hc] at i1 i2
        constructor
        · rintro ⟨_, hnum⟩
          obtain ⟨s2, d1, d2, d3⟩ := i1 hnum
          refine ⟨s2, d1, by rw [d2, List.length_cons]; omega, ?_⟩
          intro k
          rw [d3, c3, List.flatMap_cons, List.append_assoc]
        · intro hnum
          exact i2 (fun hh => hnum ⟨hk, hh⟩)
      · have hk' : ((s.count : Int) + 1 ≠ ((Nat.ofDigitChars 10 n 0 : Nat) : Int)) := by
          unfold numeral at hk; intro e; apply hk; omega
        rw [if_pos hk']
        exact ⟨fun hn => absurd hn.1 hk, fun _ => rfl⟩

/-! ### Titles of measurements -/

theorem exec_meas (w : WordClass) (a b e : Str) (ha : a ≠ []) (haw : ∀ c ∈ a, w.word c = true) (hb : b ≠ []) (hbw : ∀ c ∈ b, w.word c = true) (he : '\n' ∉ e) :
    ∃ x, exec (measRe w) (".meas ".toList ++ (a ++ (" ".toList ++ (b ++ (" ".toList ++ (e ++ ['\n'])))))) = some x ∧ group x .designator = a ∧ group x .value = b := by
  have hsp : w.word ' ' = false := by
    by_contra hh
    have := (w.not ' ' (by simpa using hh)).1
    exact absurd this (by decide)
  let r5 : Str := e ++ ['\n']
  let r4 : Str := " ".toList ++ r5
  let r3 : Str := b ++ r4
  let r2 : Str := " ".toList ++ r3
  let r1 : Str := a ++ r2
  let s0 : RSt := ⟨0, ".meas ".toList ++ r1, []⟩
  let s1 := adv s0 ".meas ".toList r1
  let s2 := Model.Regex.St.close .designator s1 (adv s1 a r2)
  let s3 := adv s2 " ".toList r3
  let s4 := Model.Regex.St.close .value s3 (adv s3 b r4)
  let s5 := adv s4 " ".toList r5
  let s6 := Model.Regex.St.close .params s5 (adv s5 e ['\n'])
  have hc : s6.caps = [(.params, s5.pos, e), (.value, s3.pos, b), (.designator, s1.pos, a)] := by
    show (Model.Regex.G.params, s5.pos, s5.rest.take ((adv s5 e ['\n']).pos - s5.pos)) :: (Model.Regex.G.value, s3.pos, s3.rest.take ((adv s3 b r4).pos - s3.pos)) ::
      [(Model.Regex.G.designator, s1.pos, s1.rest.take ((adv s1 a r2).pos - s1.pos))] = _
    simp [adv, s5, r5, s3, r3, s1, r1]
  refine ⟨s6, ?_, ?_, ?_⟩
  · unfold exec measRe
    show go _ _ s0 = _
    rw [Props.Export.go_lits _ _ _ s0 r1 rfl, go_seq, go_grp]
    refine go_plus _ _ s1 a r2 ha rfl haw (by intro c hc; simp [r2] at hc; subst hc; exact hsp) _ ?_
    show go _ _ s2 = _
    rw [Props.Export.go_lits _ _ _ s2 r3 rfl, go_seq, go_grp]
    refine go_plus _ _ s3 b r4 hb rfl hbw (by intro c hc; simp [r4] at hc; subst hc; exact hsp) _ ?_
    show go _ _ s4 = _
    rw [Props.Export.go_lits _ _ _ s4 r5 rfl, go_seq, go_grp]
    refine go_star _ _ s5 e ['\n'] rfl (by intro c hc; simp; rintro rfl; exact he hc) (by intro c hc; simp at hc; subst hc; decide) _ ?_
    show (if s6.rest = [] ∨ s6.rest = ['\n'] then some s6 else none) = some s6
    exact if_pos (.inr rfl)
  · unfold group Model.Regex.St.get
    rw [hc]; rfl
  · unfold group Model.Regex.St.get
    rw [hc]; rfl

theorem exec_plain (w : WordClass) (t : Str) (h : Plain t) : exec (measRe w) (t ++ ['\n']) = none := by
  unfold exec measRe
  apply Props.Export.lits_none
  intro hp
  rcases List.prefix_concat_iff.mp hp with e | hp
  · have := congrArg List.getLast? e
    simp at this
  · exact h.2 hp

/-! ### Columns -/

theorem newHeaders_ok (stepped : Bool) (name : Name) (n : Nat) (h : (if stepped then 2 else 1) ≤ n) :
    newHeaders stepped name n = .ok ((List.range n).map (titleOf stepped name)) := by
  unfold newHeaders
  cases stepped with
  | true =>
    simp only [if_true] at h ⊢
    rw [if_neg (by omega)]
    congr 1
    apply List.ext_getElem?
    intro i
    cases i with
    | zero => simp [titleOf, show 0 < n by omega]
    | succ i =>
      cases i with
      | zero => simp [titleOf, show 0 < n - 1 by omega, show 1 < n by omega]
      | succ i =>
        simp only [List.getElem?_cons_succ, List.getElem?_set, List.getElem?_map, List.getElem?_range']
        by_cases hi : i + 1 < n - 1
        · rw [List.getElem?_range hi, List.getElem?_range (by omega)]
          simp [titleOf]
        · rw [List.getElem?_eq_none (by simp; omega), List.getElem?_eq_none (by simp; omega)]
          simp
  | false =>
    simp only [Bool.false_eq_true, if_false] at h ⊢
    rw [if_neg (by omega)]
    congr 1
    apply List.ext_getElem?
    intro i
    cases i with
    | zero => simp [titleOf, show 0 < n by omega]
    | succ i =>
      by_cases hi : i + 1 < n
      · simp [titleOf, hi]
      · simp [hi]

theorem lower_append (a b : Str) : lower (a ++ b) = lower a ++ lower b := by
  unfold lower; exact List.map_append

theorem digit_lower (c : Char) (h : c.isDigit = true) : c.toLower = c := by
  have hb := (Lemmas.PyStr.digit_props c h).2.2.2.2
  revert h
  refine Lemmas.PyStr.ascii_ind (P := fun c => c.isDigit = true → c.toLower = c) ?_ c hb
  decide

theorem lower_numbered (name : Str) (i : Nat) : lower (name ++ '_' :: showNat i) = lower name ++ '_' :: showNat i := by
  rw [lower_append]
  congr 1
  have : ∀ l : Str, (∀ c ∈ l, c.isDigit = true ∨ c = '_') → lower l = l := by
    intro l hl
    unfold lower
    conv_rhs => rw [← List.map_id l]
    apply List.map_congr_left
    intro c hc
    rcases hl c hc with h | rfl
    · exact digit_lower c h
    · decide
  apply this
  intro c hc
  rcases List.mem_cons.mp hc with rfl | hc
  · exact .inr rfl
  · exact .inl (Lemmas.PyStr.showNat_digits i c hc)

theorem showNat_inj {a b : Nat} (h : showNat a = showNat b) : a = b := by
  have h1 := Lemmas.PyStr.parse_show a [] (by simp)
  have h2 := Lemmas.PyStr.parse_show b [] (by simp)
  rw [h] at h1
  rw [h1] at h2
  exact (Option.some.inj h2)

theorem titles_inj (stepped : Bool) (name : Str) (hn : stepped = true → lower name ≠ "step".toList) (i j : Nat)
    (h : lower (titleOf stepped name i) = lower (titleOf stepped name j)) : i = j := by
  have hlow : lower "step".toList = "step".toList := by decide
  have hus : ∀ k : Nat, lower name ++ '_' :: showNat k ≠ "step".toList := by
    intro k e
    have : '_' ∈ "step".toList := by rw [← e]; simp
    exact absurd this (by decide)
  have hself : ∀ k : Nat, lower name ≠ lower name ++ '_' :: showNat k := by
    intro k e
    have := congrArg List.length e
    simp at this
  have hnum : ∀ a b : Nat, lower name ++ '_' :: showNat a = lower name ++ '_' :: showNat b → a = b := by
    intro a b e
    have := List.append_cancel_left e
    injection this with _ this
    exact showNat_inj this
  unfold titleOf at h
  cases stepped with
  | true =>
    have hn := hn rfl
    simp only [if_true] at h
    by_cases i0 : i = 0
    · rw [if_pos i0, hlow] at h
      by_cases j0 : j = 0
      · omega
      · rw [if_neg j0] at h
        by_cases j1 : j = 1
        · rw [if_pos j1] at h; exact absurd h.symm hn
        · rw [if_neg j1, lower_numbered] at h; exact absurd h.symm (hus _)
    · rw [if_neg i0] at h
      by_cases i1 : i = 1
      · rw [if_pos i1] at h
        by_cases j0 : j = 0
        · rw [if_pos j0, hlow] at h; exact absurd h hn
        · rw [if_neg j0] at h
          by_cases j1 : j = 1
          · omega
          · rw [if_neg j1, lower_numbered] at h; exact absurd h (hself _)
      · rw [if_neg i1, lower_numbered] at h
        by_cases j0 : j = 0
        · rw [if_pos j0, hlow] at h; exact absurd h (hus _)
        · rw [if_neg j0] at h
          by_cases j1 : j = 1
          · rw [if_pos j1] at h; exact absurd h.symm (hself _)
          · rw [if_neg j1, lower_numbered] at h
            have := hnum _ _ h
            omega
  | false =>
    simp only [Bool.false_eq_true, if_false] at h
    by_cases i0 : i = 0
    · rw [if_pos i0] at h
      by_cases j0 : j = 0
      · omega
      · rw [if_neg j0, lower_numbered] at h; exact absurd h (hself _)
    · rw [if_neg i0, lower_numbered] at h
      by_cases j0 : j = 0
      · rw [if_pos j0] at h; exact absurd h.symm (hself _)
      · rw [if_neg j0, lower_numbered] at h
        exact hnum _ _ h

theorem lookup_clear : ∀ (ts : List Name) (d : Dict (List Val)) (k : Name), (clear ts d).lookup k = if k ∈ ts.map lower then some [] else d.lookup k := by
  intro ts
  induction ts with
  | nil => intro d k; simp [clear]
  | cons t ts ih =>
    intro d k
    rw [clear, ih, Props.LogRead.lookup_put]
    by_cases h1 : k ∈ ts.map lower
    · rw [if_pos h1, if_pos (by rw [List.map_cons]; exact List.mem_cons_of_mem _ h1)]
    · rw [if_neg h1]
      by_cases h2 : k = lower t
      · rw [if_pos h2, if_pos (by rw [List.map_cons, h2]; exact List.mem_cons_self ..)]
      · rw [if_neg h2, if_neg (by rw [List.map_cons, List.mem_cons]; rintro (e | e); exact h2 e; exact h1 e)]

theorem append_ok : ∀ (ts : List Name) (vs : List Val) (d : Dict (List Val)), (ts.map lower).Nodup → ts.length ≤ vs.length →
    ∃ d', append ts vs d = .ok d' ∧ (∀ j t, ts[j]? = some t → d'.lookup (lower t) = some ((d.lookup (lower t)).getD [] ++ [vs.getD j .missing])) ∧
      ∀ k, k ∉ ts.map lower → d'.lookup k = d.lookup k := by
  intro ts
  induction ts with
  | nil => intro vs d _ _; exact ⟨d, rfl, by simp, by simp⟩
  | cons t ts ih =>
    intro vs d hnd hlen
    cases vs with
    | nil => simp at hlen
    | cons v vs =>
      rw [List.map_cons, List.nodup_cons] at hnd
      obtain ⟨d', h1, h2, h3⟩ := ih vs (put (lower t) ((d.lookup (lower t)).getD [] ++ [v]) d) hnd.2 (by simpa using hlen)
      refine ⟨d', by rw [append]; exact h1, ?_, ?_⟩
      · intro j t' ht
        cases j with
        | zero =>
          simp at ht
          subst ht
          rw [h3 _ hnd.1, Props.LogRead.lookup_put, if_pos rfl]
          rfl
        | succ j =>
          simp at ht
          rw [h2 j t' ht, Props.LogRead.lookup_put, if_neg]
          · rfl
          · intro e
            exact hnd.1 (e ▸ List.mem_map.mpr ⟨t', List.mem_of_getElem? ht, rfl⟩)
      · intro k hk
        rw [List.map_cons, List.mem_cons] at hk
        rw [h3 k (fun h => hk (.inr h)), Props.LogRead.lookup_put, if_neg (fun h => hk (.inl h))]

theorem nodup_titles (stepped : Bool) (b : Block) (hn : stepped = true → lower b.name ≠ "step".toList) : ((b.titles stepped).map lower).Nodup := by
  unfold Block.titles
  rw [List.map_map]
  refine List.Nodup.map_on ?_ List.nodup_range
  intro i _ j _ e
  exact titles_inj stepped b.name hn i j e

/-- A row of values, once the titles are known. -/
theorem row_line (w : WordClass) (stepped : Bool) (s : St) (name : Name) (hs : s.name = some name) (ts : List Name) (hts : s.headers = some ts)
    (hnd : (ts.map lower).Nodup) (r : Str × List Val) (hp : Plain r.1) (hr : Spec.Grammar.Line none (r.1 ++ ['\n']) r.2) (hlen : ts.length ≤ r.2.length) :
    ∃ d', line w stepped s (r.1 ++ ['\n']) = .ok { s with dataset := d', count := s.count + 1 } ∧
      (∀ j t, ts[j]? = some t → d'.lookup (lower t) = some ((s.dataset.lookup (lower t)).getD [] ++ [r.2.getD j .missing])) ∧
      ∀ k, k ∉ ts.map lower → d'.lookup k = s.dataset.lookup k := by
  obtain ⟨d', h1, h2, h3⟩ := append_ok ts r.2 s.dataset hnd hlen
  refine ⟨d', ?_, h2, h3⟩
  unfold line
  rw [exec_plain w _ hp, hs]
  simp only
  unfold values
  rw [(Props.SplitLine.C22_split_is_the_grammar _ (by simp) _).mpr hr]
  simp only
  unfold header
  rw [hts]
  simp only
  rw [h1]
  simp only [hts, hs]

theorem rows_lines (w : WordClass) (stepped : Bool) (name : Name) (ts : List Name) (hnd : (ts.map lower).Nodup) : ∀ (rows : List (Str × List Val)) (s : St),
    s.name = some name → s.headers = some ts → (∀ r ∈ rows, Plain r.1 ∧ Spec.Grammar.Line none (r.1 ++ ['\n']) r.2 ∧ ts.length ≤ r.2.length) →
    ∃ d', (∀ rest, lines w stepped (rows.map (fun r => r.1 ++ ['\n']) ++ rest) s = lines w stepped rest { s with dataset := d', count := s.count + rows.length }) ∧
      (∀ j t, ts[j]? = some t → (s.dataset.lookup (lower t)).isSome → d'.lookup (lower t) = some ((s.dataset.lookup (lower t)).getD [] ++ rows.map (fun r => r.2.getD j .missing))) ∧
      ∀ k, k ∉ ts.map lower → d'.lookup k = s.dataset.lookup k := by
  intro rows
  induction rows with
  | nil =>
    intro s _ _ _
    refine ⟨s.dataset, fun _ => rfl, ?_, fun _ _ => rfl⟩
    intro j t _ hsome
    obtain ⟨x, hx⟩ := Option.isSome_iff_exists.mp hsome
    rw [hx]; simp
  | cons r rows ih =>
    intro s hs hts h
    obtain ⟨hp, hr, hl⟩ := h r (by simp)
    obtain ⟨d1, a1, a2, a3⟩ := row_line w stepped s name hs ts hts hnd r hp hr hl
    obtain ⟨d2, b1, b2, b3⟩ := ih { s with dataset := d1, count := s.count + 1 } hs hts (fun x hx => h x (by simp [hx]))
    refine ⟨d2, ?_, ?_, ?_⟩
    · intro rest
      rw [List.map_cons, List.cons_append]
      conv_lhs => unfold lines
      rw [a1]
      simp only
      rw [b1]
      simp only [List.length_cons]
      congr 2
      omega
    · intro j t ht _
      have e := a2 j t ht
      rw [b2 j t ht (by show (d1.lookup (lower t)).isSome = true; rw [e]; rfl)]
      show some ((d1.lookup (lower t)).getD [] ++ _) = _
      rw [e]
      simp
    · intro k hk
      rw [b3 k hk]
      exact a3 k hk

/-- A measurement: its columns are replaced, nothing else changes. -/
theorem block_lines (w : WordClass) (stepped : Bool) (b : Block) (hb : b.Ok w stepped) (s : St) :
    ∃ s', (∀ rest, lines w stepped (b.lines.map (fun l => l ++ ['\n']) ++ rest) s = lines w stepped rest s') ∧ s'.count = s.count + b.rows.length ∧
      (∀ j, j < b.width → s'.dataset.lookup (lower (titleOf stepped b.name j)) = some (b.column j)) ∧
      ∀ k, k ∉ (b.titles stepped).map lower → s'.dataset.lookup k = s.dataset.lookup k := by
  have htitle : line w stepped s (".meas ".toList ++ b.t1 ++ ' ' :: b.t2 ++ ' ' :: b.expr ++ ['\n']) = .ok { s with headers := none, name := some b.name } := by
    obtain ⟨x, h1, h2, h3⟩ := exec_meas w b.t1 b.t2 b.expr hb.t1.1 hb.t1.2 hb.t2.1 hb.t2.2 hb.expr
    have e : ".meas ".toList ++ b.t1 ++ ' ' :: b.t2 ++ ' ' :: b.expr ++ ['\n'] = ".meas ".toList ++ (b.t1 ++ (" ".toList ++ (b.t2 ++ (" ".toList ++ (b.expr ++ ['\n']))))) := by
      simp
    unfold line
    rw [e, h1]
    simp only
    rw [h2, h3]
    unfold title Block.name kinds
    simp only [List.mem_cons, List.not_mem_nil, or_false]
  have hfirst : ∀ rest, lines w stepped (b.lines.map (fun l => l ++ ['\n']) ++ rest) s =
      lines w stepped (b.rows.map (fun r => r.1 ++ ['\n']) ++ rest) { s with headers := none, name := some b.name } := by
    intro rest
    unfold Block.lines
    rw [List.map_cons, List.cons_append, List.map_map]
    conv_lhs => unfold lines
    rw [htitle]
    rfl
  cases hrows : b.rows with
  | nil =>
    have hw : b.width = 0 := by unfold Block.width; rw [hrows]; rfl
    refine ⟨{ s with headers := none, name := some b.name }, ?_, by simp, ?_, fun _ _ => rfl⟩
    · intro rest; rw [hfirst, hrows]; rfl
    · intro j hj; omega
  | cons r rows =>
    have hw : b.width = r.2.length := by unfold Block.width; rw [hrows]; rfl
    have hen := hb.enough (by rw [hrows]; simp)
    have hnd := nodup_titles stepped b hb.name
    have htl : (b.titles stepped).length = b.width := by unfold Block.titles; simp
    obtain ⟨hp, hr, _⟩ := hb.rows r (by rw [hrows]; simp)
    obtain ⟨d1, a1, a2, a3⟩ := append_ok (b.titles stepped) r.2 (clear (b.titles stepped) s.dataset) hnd (by rw [htl, hw])
    have hl1 : line w stepped { s with headers := none, name := some b.name } (r.1 ++ ['\n']) =
        .ok { s with headers := some (b.titles stepped), name := some b.name, dataset := d1, count := s.count + 1 } := by
      unfold line
      rw [exec_plain w _ hp]
      simp only
      unfold values
      rw [(Props.SplitLine.C22_split_is_the_grammar _ (by simp) _).mpr hr]
      simp only
      unfold header
      simp only
      rw [newHeaders_ok stepped b.name r.2.length (by rw [← hw]; exact hen), ← hw]
      simp only
      unfold Block.titles at a1
      rw [a1]
      rfl
    obtain ⟨d2, b1, b2, b3⟩ := rows_lines w stepped b.name (b.titles stepped) hnd rows
      { s with headers := some (b.titles stepped), name := some b.name, dataset := d1, count := s.count + 1 } rfl rfl
      (fun x hx => by
        obtain ⟨q1, q2, q3⟩ := hb.rows x (by rw [hrows]; simp [hx])
        exact ⟨q1, q2, by rw [htl]; exact q3⟩)
    refine ⟨{ s with headers := some (b.titles stepped), name := some b.name, dataset := d2, count := s.count + 1 + rows.length }, ?_, ?_, ?_, ?_⟩
    · intro rest
      rw [hfirst, hrows, List.map_cons, List.cons_append]
      conv_lhs => unfold lines
      rw [hl1]
      simp only
      exact b1 rest
    · simp only [List.length_cons]; omega
    · intro j hj
      have ht : (b.titles stepped)[j]? = some (titleOf stepped b.name j) := by
        unfold Block.titles
        rw [List.getElem?_map, List.getElem?_range hj]
        rfl
      have e1 := a2 j _ ht
      rw [lookup_clear, if_pos (List.mem_map.mpr ⟨_, List.mem_of_getElem? ht, rfl⟩)] at e1
      show d2.lookup _ = _
      rw [b2 j _ ht (by show (d1.lookup _).isSome = true; rw [e1]; rfl)]
      show some ((d1.lookup _).getD [] ++ _) = _
      rw [e1]
      unfold Block.column
      rw [hrows]
      simp
    · intro k hk
      show d2.lookup k = _
      rw [b3 k hk]
      show d1.lookup k = _
      rw [a3 k hk, lookup_clear, if_neg hk]

theorem blocks_lines (w : WordClass) (stepped : Bool) : ∀ (bs : List Block) (s : St), (∀ b ∈ bs, b.Ok w stepped) →
    ∃ s', lines w stepped ((bs.flatMap Block.lines).map (fun l => l ++ ['\n'])) s = .ok s' ∧ s'.count = s.count + (bs.map (fun b => b.rows.length)).sum ∧
      (∀ i b, bs[i]? = some b → ∀ j, j < b.width → (∀ b' ∈ bs.drop (i + 1), lower (titleOf stepped b.name j) ∉ (b'.titles stepped).map lower) →
        s'.dataset.lookup (lower (titleOf stepped b.name j)) = some (b.column j)) ∧
      ∀ k, (∀ b ∈ bs, k ∉ (b.titles stepped).map lower) → s'.dataset.lookup k = s.dataset.lookup k := by
  intro bs
  induction bs with
  | nil => intro s _; exact ⟨s, rfl, by simp, by simp, fun _ _ => rfl⟩
  | cons b bs ih =>
    intro s h
    obtain ⟨s1, a1, a2, a3, a4⟩ := block_lines w stepped b (h b (by simp)) s
    obtain ⟨s2, b1, b2, b3, b4⟩ := ih s1 (fun x hx => h x (by simp [hx]))
    refine ⟨s2, ?_, ?_, ?_, ?_⟩
    · rw [List.flatMap_cons, List.map_append, a1, b1]
    · rw [b2, a2, List.map_cons, List.sum_cons]; omega
    · intro i b' hi j hj hlater
      cases i with
      | zero =>
        simp at hi
        subst hi
        rw [b4 _ (fun x hx => hlater x (by simpa using hx)), a3 j hj]
      | succ i => exact b3 i b' (by simpa using hi) j hj (fun x hx => hlater x (by simpa using hx))
    · intro k hk
      rw [b4 k (fun x hx => hk x (by simp [hx])), a4 k (hk b (by simp))]

theorem prelude_lines (w : WordClass) (stepped : Bool) (s : St) (hs : s.name = none) (rest : List Str) : ∀ (pre : List Str), (∀ l ∈ pre, Plain l) →
    lines w stepped (pre.map (fun l => l ++ ['\n']) ++ rest) s = lines w stepped rest s := by
  intro pre
  induction pre with
  | nil => intro _; rfl
  | cons l pre ih =>
    intro h
    rw [List.map_cons, List.cons_append]
    conv_lhs => unfold lines
    have : line w stepped s (l ++ ['\n']) = .ok s := by
      unfold line
      rw [exec_plain w _ (h l (by simp)), hs]
    rw [this]
    exact ih (fun x hx => h x (by simp [hx]))

theorem block_no_eol (w : WordClass) (stepped : Bool) (b : Block) (hb : b.Ok w stepped) : ∀ l ∈ b.lines, '\n' ∉ l := by
  have hw : ∀ s : Str, (∀ c ∈ s, w.word c = true) → '\n' ∉ s := by
    intro s h hc
    have := (w.not _ (h _ hc)).1
    exact absurd this (by decide)
  intro l hl
  unfold Block.lines at hl
  rcases List.mem_cons.mp hl with rfl | hl
  · intro hc
    simp only [List.mem_append, List.mem_cons] at hc
    rcases hc with ((hc | hc) | hc | hc) | hc | hc
    · exact absurd hc (by decide)
    · exact hw _ hb.t1.2 hc
    · exact absurd hc (by decide)
    · exact hw _ hb.t2.2 hc
    · exact absurd hc (by decide)
    · exact hb.expr hc
  · obtain ⟨r, hr, rfl⟩ := List.mem_map.mp hl
    exact (hb.rows r hr).1.1

theorem file_lines (ls : List Str) (h : ∀ l ∈ ls, '\n' ∉ l) : fileLines (fileText ls) = ls.map (fun l => l ++ ['\n']) := by
  unfold fileText
  rw [List.flatMap_def]
  apply Props.Export.fileLines_closed
  intro l hl
  obtain ⟨t, ht, rfl⟩ := List.mem_map.mp hl
  exact ⟨t, rfl, h t ht⟩

/-- C77: parse_meas_file. Each measurement gets one column per value of its first row, called by its name, then name_1, name_2, … (after the shared
column `step` if the simulation has steps), with one entry per row, in the order of the file. A column is that of the last measurement that has a
column of this name; all other entries of the dataset stay. measure_count grows by the number of rows. -/
theorem C77_meas_file (w : WordClass) (stepped : Bool) (d : Dict (List Val)) (count : Nat) (pre : List Str) (bs : List Block) (hpre : ∀ l ∈ pre, Plain l)
    (h : ∀ b ∈ bs, b.Ok w stepped) :
    ∃ d', parseMeas w stepped d count (fileText (pre ++ bs.flatMap Block.lines)) = .ok (d', count + (bs.map (fun b => b.rows.length)).sum) ∧
      (∀ i b, bs[i]? = some b → ∀ j, j < b.width → (∀ b' ∈ bs.drop (i + 1), lower (titleOf stepped b.name j) ∉ (b'.titles stepped).map lower) →
        d'.lookup (lower (titleOf stepped b.name j)) = some (b.column j)) ∧
      ∀ k, (∀ b ∈ bs, k ∉ (b.titles stepped).map lower) → d'.lookup k = d.lookup k := by
  obtain ⟨s', a1, a2, a3, a4⟩ := blocks_lines w stepped bs ⟨none, none, d, count⟩ h
  refine ⟨s'.dataset, ?_, a3, a4⟩
  unfold parseMeas
  rw [file_lines, List.map_append, prelude_lines w stepped _ rfl _ pre hpre, a1]
  · simp only [a2]
  · intro l hl
    rcases List.mem_append.mp hl with hl | hl
    · exact (hpre l hl).1
    · obtain ⟨b, hb, hl⟩ := List.mem_flatMap.mp hl
      exact block_no_eol w stepped b (h b hb) l hl

theorem log_no_eol (l : LogLine) (h : l.Ok) : '\n' ∉ l.text := by
  cases l with
  | other t => exact h.1
  | step lead n tot gap t0 toks =>
    obtain ⟨h1, ⟨_, h3⟩, ⟨_, h5⟩, ⟨_, h7⟩, h8⟩ := h
    intro hc
    simp only [LogLine.text] at hc
    rw [List.append_assoc, List.mem_append] at hc
    rcases hc with hc | hc
    · simp only [List.mem_append] at hc
      rcases hc with (((((hc | hc) | hc) | hc) | hc) | hc) | hc
      · rcases h1 _ hc with e | e <;> exact absurd e (by decide)
      · exact absurd (h3 _ hc) (by decide)
      · exact absurd hc (by decide)
      · exact absurd (h5 _ hc) (by decide)
      · exact absurd hc (by decide)
      · rcases h7 _ hc with e | e <;> exact absurd e (by decide)
      · exact absurd hc (by decide)
    · exact toks_no_eol t0 toks h8 _ hc rfl

/-- C77: a QSPICE log with its .meas file. If the step lines are numbered 1, 2, … there are as many steps as lines, each variable has the values
assigned to it in the order of the file, and the measurements are those of the .meas file, stepped exactly if the log has steps. With any other
numbering the constructor raises AssertionError. -/
theorem C77_log (w : WordClass) (conv : Str → V) (ls : List LogLine) (hls : ∀ l ∈ ls, l.Ok) (pre : List Str) (bs : List Block) (hpre : ∀ l ∈ pre, Plain l)
    (h : ∀ b ∈ bs, b.Ok w (decide (stepsOf ls ≠ []))) :
    (Numbered 1 (stepsOf ls) → ∃ r : Result V, readLog w conv [] (fileText (ls.map LogLine.text)) (some (fileText (pre ++ bs.flatMap Block.lines))) = .ok r ∧
      r.steps.count = (stepsOf ls).length ∧
      (∀ k, column r.steps.stepset k = (stepsOf ls).flatMap (fun p => Props.LogRead.assigned conv k p.2)) ∧
      r.count = (bs.map (fun b => b.rows.length)).sum ∧
      (∀ i b, bs[i]? = some b → ∀ j, j < b.width →
        (∀ b' ∈ bs.drop (i + 1), lower (titleOf (decide (stepsOf ls ≠ [])) b.name j) ∉ (b'.titles (decide (stepsOf ls ≠ []))).map lower) →
        r.dataset.lookup (lower (titleOf (decide (stepsOf ls ≠ [])) b.name j)) = some (b.column j)) ∧
      ∀ k, (∀ b ∈ bs, k ∉ (b.titles (decide (stepsOf ls ≠ []))).map lower) → r.dataset.lookup k = none) ∧
    (¬ Numbered 1 (stepsOf ls) → ∀ meas, readLog w conv [] (fileText (ls.map LogLine.text)) meas = .error .assertion) := by
  obtain ⟨g, b⟩ := steps_lines conv ls (Steps.new []) hls
  have hfl : fileLines (fileText (ls.map LogLine.text)) = ls.map (fun l => l.text ++ ['\n']) := by
    rw [file_lines _ (by intro l hl; obtain ⟨x, hx, rfl⟩ := List.mem_map.mp hl; exact log_no_eol x (hls x hx)), List.map_map]
    rfl
  constructor
  · intro hn
    obtain ⟨s', a1, a2, a3⟩ := g hn
    have hc : s'.count = (stepsOf ls).length := by rw [a2]; show 0 + _ = _; omega
    have hst : decide (s'.count > 0) = decide (stepsOf ls ≠ []) := by
      rw [hc]
      cases stepsOf ls <;> simp
    obtain ⟨d', c1, c2, c3⟩ := C77_meas_file w (decide (stepsOf ls ≠ [])) [] 0 pre bs hpre h
    refine ⟨⟨s', d', 0 + (bs.map (fun b => b.rows.length)).sum⟩, ?_, hc, ?_, by simp, c2, ?_⟩
    · unfold readLog
      rw [hfl, a1]
      simp only
      rw [hst, c1]
    · intro k
      rw [a3 k]
      rfl
    · intro k hk
      rw [c3 k hk]
      rfl
  · intro hn meas
    unfold readLog
    rw [hfl, b hn]

/-! ### Examples and limits -/

def w0 : WordClass := Props.CompLine.ascii

def log1 : List LogLine :=
  [.step [] "1".toList "2".toList "  ".toList (.assign "vin".toList "1".toList) [.assign "R1".toList "1000".toList], .other "C:\\sandbox\\x.net".toList,
   .step "  ".toList "2".toList "2".toList "  ".toList (.assign "vin".toList "10".toList) [.assign "R1".toList "1000".toList]]

def meas1 : List Block :=
  [⟨"tran".toList, "t1".toList, "find v(out) at 1m:".toList, [("   0   0.632118      0.001".toList, [.text "0".toList, .text "0.632118".toList, .text "0.001".toList]),
      ("   1    6.32118      0.001".toList, [.text "1".toList, .text "6.32118".toList, .text "0.001".toList])]⟩,
   ⟨"Gain".toList, "find".toList, "v(out) at 1m:".toList, [("0 (1,2)".toList, [.text "0".toList, .group [.text "1".toList, .text "2".toList]])]⟩]

/-- The hypotheses are met by a stepped log with two measurements, one of them with a complex value. -/
theorem C77_sample : (∀ l ∈ log1, l.Ok) ∧ Numbered 1 (stepsOf log1) ∧ (stepsOf log1).length = 2 ∧ (∀ b ∈ meas1, b.Ok w0 true) ∧
    (meas1.map (fun b => b.titles true)) = [["step".toList, "t1".toList, "t1_1".toList], ["step".toList, "Gain".toList]] := by
  refine ⟨?_, ⟨by decide, by decide, trivial⟩, rfl, ?_, rfl⟩
  · intro l hl
    simp only [log1, List.mem_cons, List.not_mem_nil, or_false] at hl
    rcases hl with rfl | rfl | rfl
    · refine ⟨by decide, by unfold Digits; decide, by unfold Digits; decide, by decide, ?_⟩
      intro t ht
      simp only [List.mem_cons, List.not_mem_nil, or_false] at ht
      rcases ht with rfl | rfl <;> (unfold Tok.Clean; decide)
    · exact ⟨by decide, by decide +kernel⟩
    · refine ⟨by decide, by unfold Digits; decide, by unfold Digits; decide, by decide, ?_⟩
      intro t ht
      simp only [List.mem_cons, List.not_mem_nil, or_false] at ht
      rcases ht with rfl | rfl <;> (unfold Tok.Clean; decide)
  · have key : ∀ (l : Str) (vs : List Val), split (l ++ ['\n']) = some vs → Spec.Grammar.Line none (l ++ ['\n']) vs :=
      fun l vs e => (Props.SplitLine.C22_split_is_the_grammar _ (by simp) _).mp e
    intro b hb
    simp only [meas1, List.mem_cons, List.not_mem_nil, or_false] at hb
    rcases hb with rfl | rfl
    · refine ⟨by decide, by decide, by decide, ?_, by decide, by decide⟩
      intro r hr
      simp only [List.mem_cons, List.not_mem_nil, or_false] at hr
      rcases hr with rfl | rfl
      · exact ⟨⟨by decide, by decide⟩, key "   0   0.632118      0.001".toList _ rfl, by decide⟩
      · exact ⟨⟨by decide, by decide⟩, key "   1    6.32118      0.001".toList _ rfl, by decide⟩
    · refine ⟨by decide, by decide, by decide, ?_, by decide, by decide⟩
      intro r hr
      simp only [List.mem_cons, List.not_mem_nil, or_false] at hr
      subst hr
      exact ⟨⟨by decide, by decide⟩, key "0 (1,2)".toList _ rfl, by decide⟩

/-- What kind of exception, if any. -/
def raised {A : Type} : Except Err A → Option Err
  | .error e => some e
  | .ok _ => none

/-- Limit: an empty line after a measurement raises IndexError. -/
theorem C77_blank_line (d : Dict (List Val)) : raised (parseMeas w0 false d 0 ".meas tran t1 find x:\n\n".toList) = some .index := rfl

/-- Limit: a row shorter than the first one raises IndexError; one without balanced brackets raises ValueError. -/
theorem C77_short_row : raised (parseMeas w0 false [] 0 ".meas tran t1 find x:\n1 2\n3\n".toList) = some .index ∧
    raised (parseMeas w0 false [] 0 ".meas tran t1 find x:\n(1 2\n".toList) = some .value := ⟨rfl, rfl⟩

/-- Limit: the kind of the simulation is recognised in lower case only, and a measurement called like a kind of simulation loses its name. -/
theorem C77_kind : (parseMeas w0 false [] 0 ".meas TRAN t1 find x:\n1\n.meas ac find v(x) at 1:\n2\n".toList).toOption.map (fun r => r.1) =
    some [("tran".toList, [.text "1".toList]), ("find".toList, [.text "2".toList])] := rfl

/-- Limit: the column `step` belongs to the last measurement, whatever the number of rows of the others. -/
theorem C77_step_shared : (parseMeas w0 true [] 0 ".meas tran a find x:\n0 5\n1 6\n.meas tran b find x:\n0 7\n".toList).toOption.map (fun r => r.1) =
    some [("step".toList, [.text "0".toList]), ("a".toList, [.text "5".toList, .text "6".toList]), ("b".toList, [.text "7".toList])] := rfl

/-- Limit: in a stepped simulation a measurement called `step` gets the numbers of the steps and its values in one column. -/
theorem C77_named_step : (parseMeas w0 true [] 0 ".meas tran step find x:\n0 5\n1 6\n".toList).toOption.map (fun r => r.1) =
    some [("step".toList, [.text "0".toList, .text "5".toList, .text "1".toList, .text "6".toList])] := rfl

end Props.QspiceLog
