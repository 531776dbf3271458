import Verif.Lemmas.Lines
/-
C31: logical lines. The equations below determine the lines of every text (C31_every_text_has_one_of_these_forms says that
no case is missing, for texts without carriage returns, which text files opened by Python do not contain).
-/
namespace Props.Lines
open Model.Lines Spec.LogicalLine Lemmas.Lines

/-- C31: a text in which line breaks and comments only occur inside brackets and quotes, and in which all of them are closed
at the end, is one logical line when a line break that is not followed by a plus sign comes after it. -/
theorem C31_line (t rest : Str) (hu : Unbroken t) (hc : nest t = some outside)
    (h1 : rest.head? ≠ some '+') (h2 : rest.head? ≠ some '\r') :
    separateLines (t ++ '\n' :: rest) = ⟨(t ++ ['\n']) :: (separateLines rest).lines, (separateLines rest).raised⟩ := by
  rw [sep_unbroken t _ _ hc hu]
  conv => lhs; unfold sep
  cases rest with
  | nil => simp [isOpening, isClosing, isBreak, outside, separateLines, sep]
  | cons d ds =>
    have h3 : d ≠ '+' := by simpa using h1
    have h4 : d ≠ '\r' := by simpa using h2
    simp [isOpening, isClosing, isBreak, outside, separateLines, Out.cons, h3, h4]

/-- C31: a continuation marker is equivalent to its absence. -/
theorem C31_continuation (t rest : Str) (n : Char) (hn : n = '\n' ∨ n = '\r') (hu : Unbroken t) (hc : nest t = some outside) :
    separateLines (t ++ n :: '+' :: rest) = separateLines (t ++ rest) := by
  rw [sep_unbroken t _ _ hc hu, sep_unbroken t _ _ hc hu]
  conv => lhs; unfold sep
  rcases hn with rfl | rfl <;> simp [isOpening, isClosing, isBreak, outside]

/-- C31 (finding): no blank takes the place of the marker, so that words at the break are fused: the resistor between a and b
below is read as a resistor between a and b1k without a value. -/
theorem C31_continuation_fuses_words : separateLines "R1 a b\n+1k\n".toList = ⟨["R1 a b1k\n".toList], false⟩ := by decide +kernel

/-- C31: a line starting with * is a line of its own whatever it contains. -/
theorem C31_comment_line (w rest : Str) (hw : '\n' ∉ w) :
    separateLines ('*' :: w ++ '\n' :: rest) = ⟨('*' :: w ++ ['\n']) :: (separateLines rest).lines, (separateLines rest).raised⟩ ∧
    separateLines ('*' :: w) = ⟨['*' :: w], false⟩ := by
  constructor
  · unfold separateLines
    rw [List.cons_append]
    conv => lhs; unfold sep
    simp only [Bool.false_eq_true, if_false, isOpening, isClosing, isBreak, List.isEmpty_nil]
    simp only [Char.reduceEq, decide_false, decide_true, Bool.or_self, Bool.false_eq_true, if_false, Bool.and_self, if_true, Bool.not_false, List.nil_append]
    rw [sep_comment _ _ _ _ _ hw]
    conv => lhs; unfold sep
    simp [Out.cons]
  · unfold separateLines
    conv => lhs; unfold sep
    simp only [Bool.false_eq_true, if_false, isOpening, isClosing, isBreak, List.isEmpty_nil]
    simp only [Char.reduceEq, decide_false, decide_true, Bool.or_self, Bool.false_eq_true, if_false, Bool.and_self, if_true, Bool.not_false, List.nil_append]
    have := sep_comment w ['*'] [] false [] hw
    rw [List.append_nil] at this
    rw [this]
    simp [sep]

/-- C31: a semicolon outside brackets and quotes starts a comment that goes to the end of the line; the line ends there, even
when the next line starts with a plus sign. -/
theorem C31_trailing_comment (t w rest : Str) (hu : Unbroken t) (hc : nest t = some outside) (hw : '\n' ∉ w) :
    separateLines (t ++ ';' :: (w ++ '\n' :: rest)) =
      ⟨(t ++ ';' :: (w ++ ['\n'])) :: (separateLines rest).lines, (separateLines rest).raised⟩ ∧
    separateLines (t ++ ';' :: w) = ⟨[t ++ ';' :: w], false⟩ := by
  constructor
  · rw [sep_unbroken t _ _ hc hu]
    conv => lhs; unfold sep
    simp only [Bool.false_eq_true, if_false, isOpening, isClosing, isBreak, outside]
    simp only [Char.reduceEq, decide_false, decide_true, Bool.or_self, Bool.false_eq_true, if_false, Bool.false_and, Bool.and_self, if_true, Bool.not_false, List.isEmpty_nil]
    rw [sep_comment _ _ _ _ _ hw]
    conv => lhs; unfold sep
    simp [Out.cons, separateLines]
  · rw [sep_unbroken t _ _ hc hu]
    conv => lhs; unfold sep
    simp only [Bool.false_eq_true, if_false, isOpening, isClosing, isBreak, outside]
    simp only [Char.reduceEq, decide_false, decide_true, Bool.or_self, Bool.false_eq_true, if_false, Bool.false_and, Bool.and_self, if_true, Bool.not_false, List.isEmpty_nil]
    have := sep_comment w (t ++ [';']) [] false [] hw
    rw [List.append_nil] at this
    rw [this]
    simp [sep]

/-- C31: a closing bracket that does not fit raises. -/
theorem C31_bad_bracket_raises (t rest : Str) (c : Char) (n : Nest) (hu : Unbroken t) (hn : nest t = some n) (hc : next n c = none) :
    separateLines (t ++ c :: rest) = ⟨[], true⟩ := by
  rw [sep_unbroken t _ _ hn hu]
  conv => lhs; unfold sep
  unfold next at hc
  split_ifs at hc with h1 h2 h3
  have ho : ¬ isOpening c = true := by simp only [isOpening, Bool.or_eq_true, decide_eq_true_eq]; tauto
  have hcl : isClosing c = true := by simp only [isClosing, Bool.or_eq_true, decide_eq_true_eq]; tauto
  simp only [Bool.false_eq_true, if_false, ho, hcl, if_true]
  cases hs : n.1 with
  | nil => rfl
  | cons o os =>
    rw [hs] at hc
    simp only at hc ⊢
    have : mismatch c o = true := by
      cases hm : mismatch c o with
      | true => rfl
      | false =>
        rw [mismatch_iff c o hcl] at hm
        rw [if_pos hm] at hc; cases hc
    rw [if_pos this]

/-- C31: at the end of the stream the remaining text is the last line. The claim that unbalanced brackets raise is violated:
this also happens when brackets or quotes are still open, so that everything behind a bracket that is never closed silently
becomes part of that line. -/
theorem C31_last_line (t : Str) (n : Nest) (hu : Unbroken t) (hn : nest t = some n) (hne : t ≠ []) :
    separateLines t = ⟨[t], false⟩ := by
  have := sep_unbroken t [] _ hn hu
  rw [List.append_nil] at this
  rw [this]
  cases t with
  | nil => exact absurd rfl hne
  | cons => rfl

theorem C31_empty : separateLines [] = ⟨[], false⟩ := rfl

example : separateLines "R1 a b {x\nR2 c d 1k\n.end\n".toList = ⟨["R1 a b {x\nR2 c d 1k\n.end\n".toList], false⟩ := by decide +kernel
example : separateLines "amplifier :)\n.end\n".toList = ⟨[], true⟩ := by decide +kernel
example : separateLines "* t (\nB1 a b V={x\n+y}\nR1 a b\n+ 1k ; c\n+ tc=1\n".toList =
    ⟨["* t (\n".toList, "B1 a b V={x\n+y}\n".toList, "R1 a b 1k ; c\n".toList, "+ tc=1\n".toList], false⟩ := by decide +kernel

/-- C31: the forms of the theorems above cover every text without carriage returns. -/
theorem C31_every_text_has_one_of_these_forms (s : Str) (hr : '\r' ∉ s) :
    s = [] ∨
    (∃ t rest, s = t ++ '\n' :: rest ∧ Unbroken t ∧ nest t = some outside ∧ rest.head? ≠ some '+' ∧ rest.head? ≠ some '\r') ∨
    (∃ t rest, s = t ++ '\n' :: '+' :: rest ∧ Unbroken t ∧ nest t = some outside) ∨
    (∃ w rest, (s = '*' :: w ++ '\n' :: rest ∨ s = '*' :: w) ∧ '\n' ∉ w) ∨
    (∃ t w rest, (s = t ++ ';' :: (w ++ '\n' :: rest) ∨ s = t ++ ';' :: w) ∧ '\n' ∉ w ∧ Unbroken t ∧ nest t = some outside) ∨
    (∃ t c n rest, s = t ++ c :: rest ∧ Unbroken t ∧ nest t = some n ∧ next n c = none) ∨
    (s ≠ [] ∧ Unbroken s ∧ ∃ n, nest s = some n) := by
  have hline : ∀ u : Str, ∃ w rest, (u = w ++ '\n' :: rest ∨ u = w) ∧ '\n' ∉ w := by
    intro u
    induction u with
    | nil => exact ⟨[], [], Or.inr rfl, by simp⟩
    | cons c u ih =>
      by_cases hc : c = '\n'
      · exact ⟨[], u, Or.inl (by rw [hc]; rfl), by simp⟩
      · obtain ⟨w, rest, h, hw⟩ := ih
        refine ⟨c :: w, rest, ?_, by simp [hw, Ne.symm hc]⟩
        rcases h with h | h
        · left; rw [h]; rfl
        · right; rw [h]
  by_cases hstar : s.head? = some '*'
  · obtain ⟨u, rfl⟩ : ∃ u, s = '*' :: u := by
      cases s with
      | nil => simp at hstar
      | cons c u => exact ⟨u, by simpa using hstar⟩
    obtain ⟨w, rest, h, hw⟩ := hline u
    right; right; right; left
    refine ⟨w, rest, ?_, hw⟩
    rcases h with h | h
    · left; rw [h]; rfl
    · right; rw [h]
  · -- walk through the text as long as nothing happens
    have key : ∀ (u t : Str), s = t ++ u → Unbroken t → (∃ n, nest t = some n) →
        (Unbroken s ∧ ∃ n, nest s = some n) ∨
        ∃ t c u n, s = t ++ c :: u ∧ Unbroken t ∧ nest t = some n ∧
          (next n c = none ∨ ((c = '\n' ∨ c = '\r' ∨ c = ';') ∧ n = outside)) := by
      intro u
      induction u with
      | nil => intro t h hu hn; left; rw [List.append_nil] at h; rw [h]; exact ⟨hu, hn⟩
      | cons c u ih =>
        intro t h hu ⟨n, hn⟩
        by_cases hbad : next n c = none ∨ ((c = '\n' ∨ c = '\r' ∨ c = ';') ∧ n = outside)
        · right; exact ⟨t, c, u, n, h, hu, hn, hbad⟩
        · obtain ⟨h1, h2⟩ := not_or.mp hbad
          have hnest : nest (t ++ [c]) = next n c := by
            unfold nest at hn ⊢
            rw [nestFrom_append, hn]
            simp only [Option.bind_some, nestFrom]
            cases next n c <;> rfl
          apply ih (t ++ [c]) (by rw [h]; simp)
          · constructor
            · cases t with
              | nil =>
                intro hh
                apply hstar
                rw [h]; simpa using hh
              | cons x t => intro hh; exact hu.1 (by simpa using hh)
            · intro a b d hd hd2
              rcases List.append_eq_append_iff.mp hd with ⟨a', ha, hb⟩ | ⟨a', ha, hb⟩
              · cases a' with
                | nil =>
                  simp at hb ha
                  rw [ha, hn]
                  rw [← hb.1] at hd2
                  intro hh
                  exact h2 ⟨hd2, by simpa using hh⟩
                | cons x a' => simp at hb
              · cases a' with
                | nil =>
                  simp at hb ha
                  rw [← ha, hn]
                  rw [hb.1] at hd2
                  intro hh
                  exact h2 ⟨hd2, by simpa using hh⟩
                | cons x a' =>
                  simp at hb
                  rw [← hb.1] at ha
                  exact hu.2 a a' d ha hd2
          · rw [hnest]
            cases hh : next n c with
            | none => exact absurd hh h1
            | some m => exact ⟨m, rfl⟩
    rcases key s [] rfl ⟨by simp, fun a b c h => by simp at h⟩ ⟨outside, rfl⟩ with h | ⟨t, c, u, n, hs, hu, hn, h | ⟨h, rfl⟩⟩
    · by_cases he : s = []
      · exact Or.inl he
      · exact Or.inr (Or.inr (Or.inr (Or.inr (Or.inr (Or.inr ⟨he, h⟩)))))
    · exact Or.inr (Or.inr (Or.inr (Or.inr (Or.inr (Or.inl ⟨t, c, n, u, hs, hu, hn, h⟩)))))
    · rcases h with rfl | rfl | rfl
      · by_cases hp : u.head? = some '+'
        · obtain ⟨v, rfl⟩ : ∃ v, u = '+' :: v := by
            cases u with
            | nil => simp at hp
            | cons c v => exact ⟨v, by simpa using hp⟩
          exact Or.inr (Or.inr (Or.inl ⟨t, v, hs, hu, hn⟩))
        · refine Or.inr (Or.inl ⟨t, u, hs, hu, hn, hp, ?_⟩)
          intro hh
          apply hr
          rw [hs]
          cases u with
          | nil => simp at hh
          | cons d u => simp only [List.head?_cons, Option.some.injEq] at hh; simp [hh]
      · exact absurd (by rw [hs]; simp) hr
      · obtain ⟨w, rest, h, hw⟩ := hline u
        refine Or.inr (Or.inr (Or.inr (Or.inr (Or.inl ⟨t, w, rest, ?_, hw, hu, hn⟩))))
        rcases h with h | h
        · left; rw [hs, h]
        · right; rw [hs, h]

theorem sep_lossless : ∀ (k : Nat) (s cur : Str) (st : List Char) (q com : Bool), s.length ≤ k →
    (sep cur st q com s).raised = false →
    ∃ t, Joined s t ∧ (sep cur st q com s).lines.flatten = cur ++ t := by
  intro k
  induction k with
  | zero =>
    intro s cur st q com hk _
    have : s = [] := List.eq_nil_of_length_eq_zero (by omega)
    subst this
    refine ⟨[], .nil, ?_⟩
    unfold sep
    cases cur <;> simp
  | succ k ih =>
    intro s cur st q com hk hr
    cases s with
    | nil =>
      refine ⟨[], .nil, ?_⟩
      unfold sep
      cases cur <;> simp
    | cons c cs =>
      have hk' : cs.length ≤ k := by simpa using hk
      -- the two ways to go on
      have keep : ∀ (st' : List Char) (q' com' : Bool), (sep (cur ++ [c]) st' q' com' cs).raised = false →
          ∃ t, Joined (c :: cs) t ∧ (sep (cur ++ [c]) st' q' com' cs).lines.flatten = cur ++ t := by
        intro st' q' com' h
        obtain ⟨t, h1, h2⟩ := ih cs (cur ++ [c]) st' q' com' hk' h
        exact ⟨c :: t, .keep c h1, by rw [h2]; simp⟩
      have cut : ((sep [] st q false cs).cons (cur ++ [c])).raised = false →
          ∃ t, Joined (c :: cs) t ∧ ((sep [] st q false cs).cons (cur ++ [c])).lines.flatten = cur ++ t := by
        intro h
        obtain ⟨t, h1, h2⟩ := ih cs [] st q false hk' h
        refine ⟨c :: t, .keep c h1, ?_⟩
        simp only [Out.cons, List.flatten_cons, h2]
        simp
      unfold sep at hr ⊢
      by_cases h0 : com = true
      · simp only [h0, if_true] at hr ⊢
        by_cases h1 : c = '\n'
        · simp only [h1, if_true] at hr cut ⊢
          exact cut hr
        · simp only [h1, if_false] at hr ⊢
          exact keep _ _ _ hr
      · simp only [h0, Bool.false_eq_true, if_false] at hr ⊢
        by_cases h1 : isOpening c = true
        · rw [if_pos h1] at hr ⊢; exact keep _ _ _ hr
        · rw [if_neg h1] at hr ⊢
          by_cases h2 : isClosing c = true
          · rw [if_pos h2] at hr ⊢
            cases st with
            | nil => simp at hr
            | cons o os =>
              simp only at hr ⊢
              by_cases h3 : mismatch c o = true
              · rw [if_pos h3] at hr; simp at hr
              · rw [if_neg h3] at hr ⊢; exact keep _ _ _ hr
          · rw [if_neg h2] at hr ⊢
            by_cases h3 : c = '"'
            · rw [if_pos h3] at hr ⊢; exact keep _ _ _ hr
            · rw [if_neg h3] at hr ⊢
              by_cases h4 : isBreak c = true
              · rw [if_pos h4] at hr ⊢
                by_cases h5 : (st.isEmpty && !q) = true
                · rw [if_pos h5] at hr ⊢
                  cases cs with
                  | nil => exact ⟨[c], .keep c .nil, by simp⟩
                  | cons d ds =>
                    simp only at hr ⊢
                    by_cases h6 : d = '+'
                    · rw [if_pos h6] at hr ⊢
                      obtain ⟨t, h7, h8⟩ := ih ds cur st q false (by simp at hk'; omega) hr
                      refine ⟨t, ?_, h8⟩
                      rw [h6]
                      exact .drop c (by simpa [isBreak] using h4) h7
                    · rw [if_neg h6] at hr ⊢
                      by_cases h7 : ((decide (d = '\n') && decide (c = '\r')) || (decide (d = '\r') && decide (c = '\n'))) = true
                      · rw [if_pos h7] at hr ⊢; exact keep _ _ _ hr
                      · rw [if_neg h7] at hr ⊢; exact cut hr
                · rw [if_neg h5] at hr ⊢; exact keep _ _ _ hr
              · rw [if_neg h4] at hr ⊢
                by_cases h5 : (decide (c = '*') && cur.isEmpty && st.isEmpty && !q) = true
                · rw [if_pos h5] at hr ⊢; exact keep _ _ _ hr
                · rw [if_neg h5] at hr ⊢
                  by_cases h6 : (decide (c = ';') && st.isEmpty && !q) = true
                  · rw [if_pos h6] at hr ⊢; exact keep _ _ _ hr
                  · rw [if_neg h6] at hr ⊢; exact keep _ _ _ hr

/-- C31: nothing but continuation markers is lost, whatever the text. -/
theorem C31_lossless (s : Str) (h : (separateLines s).raised = false) : Joined s (separateLines s).lines.flatten := by
  obtain ⟨t, h1, h2⟩ := sep_lossless s.length s [] [] false false (Nat.le_refl _) h
  have : (separateLines s).lines.flatten = t := by simpa [separateLines] using h2
  rw [this]; exact h1

example : Joined "R1 a b\n+1k\n.end\n".toList "R1 a b1k\n.end\n".toList := by
  have := C31_lossless "R1 a b\n+1k\n.end\n".toList (by decide +kernel)
  rwa [show (separateLines "R1 a b\n+1k\n.end\n".toList).lines.flatten = "R1 a b1k\n.end\n".toList by decide +kernel] at this

end Props.Lines
