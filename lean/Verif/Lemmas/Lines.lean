import Verif.Model.Lines
import Verif.Spec.LogicalLine
import Mathlib.Tactic.SplitIfs
import Mathlib.Tactic.Tauto
namespace Lemmas.Lines
open Model.Lines Spec.LogicalLine

theorem nestFrom_append (n : Nest) (a b : List Char) :
    nestFrom n (a ++ b) = (nestFrom n a).bind (fun m => nestFrom m b) := by
  induction a generalizing n with
  | nil => rfl
  | cons c a ih =>
    simp only [List.cons_append, nestFrom]
    cases next n c with
    | none => rfl
    | some m => simp only [ih]

theorem mismatch_iff (c o : Char) (hc : isClosing c = true) : mismatch c o = false ↔ partner o = some c := by
  unfold isClosing at hc
  simp only [Bool.or_eq_true, decide_eq_true_eq] at hc
  have hp : ∀ (x : Char), partner o = some x ↔ (o = '{' ∧ x = '}') ∨ (o = '(' ∧ x = ')') ∨ (o = '[' ∧ x = ']') := by
    intro x
    unfold partner
    split
    · simp [eq_comm]
    · simp [eq_comm]
    · simp [eq_comm]
    · rename_i h1 h2 h3
      simp only [reduceCtorEq, false_iff]
      rintro (⟨h, _⟩ | ⟨h, _⟩ | ⟨h, _⟩)
      · exact h1 h
      · exact h2 h
      · exact h3 h
  rw [hp]
  rcases hc with (rfl | rfl) | rfl <;> simp [mismatch]

/-- One character that is neither a break, a comment start nor a bad bracket is appended to the line. -/
theorem sep_char (cur : Str) (n m : Nest) (c : Char) (cs : Str) (hn : next n c = some m)
    (hb : (c = '\n' ∨ c = '\r' ∨ c = ';') → n ≠ outside) (hs : c = '*' → cur = [] → n ≠ outside) :
    sep cur n.1 n.2 false (c :: cs) = sep (cur ++ [c]) m.1 m.2 false cs := by
  obtain ⟨st, q⟩ := n
  have hout : (st, q) ≠ outside → (st.isEmpty && !q) = false := by
    intro h
    cases st with
    | cons => rfl
    | nil =>
      cases q with
      | true => rfl
      | false => exact absurd rfl h
  conv => lhs; unfold sep
  simp only [Bool.false_eq_true, if_false]
  by_cases h1 : c = '{' ∨ c = '(' ∨ c = '['
  · have : isOpening c = true := by simp only [isOpening, Bool.or_eq_true, decide_eq_true_eq]; tauto
    rw [if_pos this]
    unfold next at hn
    rw [if_pos h1] at hn
    cases hn; rfl
  · have : ¬ isOpening c = true := by simp only [isOpening, Bool.or_eq_true, decide_eq_true_eq]; tauto
    rw [if_neg this]
    unfold next at hn
    rw [if_neg h1] at hn
    by_cases h2 : c = '}' ∨ c = ')' ∨ c = ']'
    · have hc : isClosing c = true := by simp only [isClosing, Bool.or_eq_true, decide_eq_true_eq]; tauto
      rw [if_pos hc]
      rw [if_pos h2] at hn
      cases st with
      | nil => simp at hn
      | cons o os =>
        simp only at hn ⊢
        by_cases hp : partner o = some c
        · rw [if_pos hp] at hn
          rw [(mismatch_iff c o hc).mpr hp]
          cases hn; rfl
        · rw [if_neg hp] at hn; cases hn
    · have : ¬ isClosing c = true := by simp only [isClosing, Bool.or_eq_true, decide_eq_true_eq]; tauto
      rw [if_neg this]
      rw [if_neg h2] at hn
      by_cases h3 : c = '"'
      · rw [if_pos h3]
        rw [if_pos h3] at hn
        cases hn; rfl
      · rw [if_neg h3]
        rw [if_neg h3] at hn
        cases hn
        by_cases h4 : isBreak c = true
        · rw [if_pos h4]
          have := hout (hb (by simp only [isBreak, Bool.or_eq_true, decide_eq_true_eq] at h4; tauto))
          simp only [this, Bool.false_eq_true, if_false]
        · rw [if_neg h4]
          by_cases h5 : c = '*'
          · subst h5
            have h6 : ('*' = ';') = False := by simp
            simp only [decide_true, Bool.true_and]
            by_cases hcur : cur = []
            · have := hout (hs rfl hcur)
              subst hcur
              simp only [List.isEmpty_nil, Bool.true_and, this, Bool.false_eq_true, if_false]
              rw [if_neg (by simp)]
            · have : cur.isEmpty = false := by cases cur with
                | nil => exact absurd rfl hcur
                | cons => rfl
              simp only [this, Bool.false_and, Bool.false_eq_true, if_false]
              rw [if_neg (by simp)]
          · simp only [h5, decide_false, Bool.false_and, Bool.false_eq_true, if_false]
            by_cases h6 : c = ';'
            · have := hout (hb (by tauto))
              rw [if_neg]
              simp only [h6, decide_true, Bool.true_and, this]
              simp
            · simp [h6]

/-- A text without breaks and comments outside brackets is appended to the line. -/
theorem sep_text : ∀ (t cur : Str) (n m : Nest) (rest : Str), nestFrom n t = some m →
    (∀ (a b : List Char) (c : Char), t = a ++ c :: b → (c = '\n' ∨ c = '\r' ∨ c = ';') → nestFrom n a ≠ some outside) →
    (cur = [] → t.head? = some '*' → n ≠ outside) →
    sep cur n.1 n.2 false (t ++ rest) = sep (cur ++ t) m.1 m.2 false rest := by
  intro t
  induction t with
  | nil =>
    intro cur n m rest h _ _
    simp only [nestFrom, Option.some.injEq] at h
    subst h; simp
  | cons c t ih =>
    intro cur n m rest h hb hs
    rw [nestFrom] at h
    cases hn : next n c with
    | none => rw [hn] at h; cases h
    | some k =>
      rw [hn] at h
      rw [List.cons_append, sep_char cur n k c (t ++ rest) hn]
      · rw [ih (cur ++ [c]) k m rest h]
        · simp
        · intro a b d hd hd2 hk
          apply hb (c :: a) b d (by rw [hd]; rfl) hd2
          rw [nestFrom, hn]; exact hk
        · intro hh; simp at hh
      · intro hc hh
        exact hb [] t c rfl hc (by rw [hh]; rfl)
      · intro hc hcur
        exact hs hcur (by rw [hc]; rfl)

theorem sep_unbroken (t rest : Str) (m : Nest) (h : nest t = some m) (hu : Unbroken t) :
    separateLines (t ++ rest) = sep t m.1 m.2 false rest := by
  have := sep_text t [] outside m rest h hu.2 (fun _ hh => absurd hh hu.1)
  simpa [separateLines, outside] using this

theorem sep_comment : ∀ (w cur : Str) (st : List Char) (q : Bool) (rest : Str), '\n' ∉ w →
    sep cur st q true (w ++ rest) = sep (cur ++ w) st q true rest := by
  intro w
  induction w with
  | nil => intro cur st q rest _; simp
  | cons c w ih =>
    intro cur st q rest h
    have h1 : c ≠ '\n' := by intro hh; apply h; simp [hh]
    rw [List.cons_append]
    conv => lhs; unfold sep
    simp only [if_true, if_neg h1]
    rw [ih _ _ _ _ (by intro hh; apply h; simp [hh])]
    simp

end Lemmas.Lines
