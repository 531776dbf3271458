import Verif.Model.FloatUnit
import Verif.Spec.EngNumber
import Verif.Lemmas.PyStr
import Mathlib.Tactic.FieldSimp
import Mathlib.Tactic.Ring
import Mathlib.Tactic.Linarith
import Mathlib.Tactic.Push
import Mathlib.Data.List.TakeWhile
/-
Reading numbers in engineering notation.
-/
namespace Lemmas.FloatUnit
open Model.FloatUnit Model.PyStr Lemmas.PyStr
open Spec.EngNumber hiding Str

theorem takeWhile_append_stop {p : Char → Bool} {a b : List Char} (ha : ∀ c ∈ a, p c = true) (hb : ∀ c ∈ b.head?, p c = false) :
    (a ++ b).takeWhile p = a ∧ (a ++ b).dropWhile p = b := by
  induction a with
  | nil =>
    cases b with
    | nil => simp
    | cons x t => have := hb x (by simp); simp [this]
  | cons x t ih =>
    have h := ih (fun c hc => ha c (List.mem_cons_of_mem _ hc))
    have hx := ha x (by simp)
    simp [hx, h.1, h.2]

theorem takeWhile_all {p : Char → Bool} {a : List Char} (ha : ∀ c ∈ a, p c = true) : a.takeWhile p = a ∧ a.dropWhile p = [] := by
  have := takeWhile_append_stop (b := []) ha (by simp)
  simpa using this

/-- Nothing is stripped from a text with visible first and last characters. -/
theorem strip_visible {s : List Char} (h1 : ∀ c ∈ s.head?, isSpace c = false) (h2 : ∀ c ∈ s.getLast?, isSpace c = false) : strip s = s := by
  have e1 : lstrip s = s := by
    unfold lstrip
    cases s with
    | nil => rfl
    | cons x t => have := h1 x (by simp); simp [this]
  have e2 : rstrip s = s := by
    unfold rstrip
    have : s.reverse.dropWhile isSpace = s.reverse := by
      cases hr : s.reverse with
      | nil => rfl
      | cons x t =>
        have : isSpace x = false := h2 x (by rw [← List.head?_reverse, hr]; rfl)
        simp [this]
    rw [this, List.reverse_reverse]
  unfold strip
  rw [e1, e2]

theorem strip_blanks {a s b : List Char} (ha : ∀ c ∈ a, isSpace c = true) (hb : ∀ c ∈ b, isSpace c = true) : strip (a ++ s ++ b) = strip s := by
  unfold strip lstrip rstrip
  rw [List.append_assoc, dropWhile_all isSpace a _ ha]
  by_cases hs : ∀ c ∈ s, isSpace c = true
  · rw [dropWhile_all isSpace s _ hs]
    have h1 : b.dropWhile isSpace = [] := (takeWhile_all hb).2
    have h2 : s.dropWhile isSpace = [] := (takeWhile_all hs).2
    rw [h1, h2]
  · have : (s ++ b).dropWhile isSpace = s.dropWhile isSpace ++ b := by
      clear ha hb a
      induction s with
      | nil => simp at hs
      | cons x t ih =>
        by_cases hx : isSpace x = true
        · rw [List.cons_append, List.dropWhile_cons_of_pos hx, List.dropWhile_cons_of_pos hx]
          apply ih
          intro h
          exact hs (by intro c hc; rcases List.mem_cons.mp hc with rfl | hc; exacts [hx, h c hc])
        · rw [List.cons_append, List.dropWhile_cons_of_neg hx, List.dropWhile_cons_of_neg hx]; rfl
    rw [this, List.reverse_append, dropWhile_all isSpace _ _ (by simpa using hb)]

theorem digit_num {c : Char} (h : c.isDigit = true) : isNumChar c = true := by simp [isNumChar, h]

theorem digit_upper {c : Char} (h : c.isDigit = true) : c.toUpper ≠ 'E' ∧ c.toUpper ≠ 'R' ∧ c ≠ '-' ∧ c ≠ '+' ∧ c ≠ '.' := by
  have h2 := (digit_props c h).2.2.2.2
  revert h
  exact ascii_ind (P := fun c => c.isDigit = true → c.toUpper ≠ 'E' ∧ c.toUpper ≠ 'R' ∧ c ≠ '-' ∧ c ≠ '+' ∧ c ≠ '.') (by decide) c h2

theorem num_visible {c : Char} (h : isNumChar c = true) : isSpace c = false := by
  unfold isNumChar at h
  simp only [Bool.or_eq_true, beq_iff_eq] at h
  rcases h with ((h | rfl) | rfl) | rfl
  · exact (digit_props c h).1
  all_goals decide

theorem num_upper {c : Char} (h : isNumChar c = true) : c.toUpper ≠ 'E' := by
  unfold isNumChar at h
  simp only [Bool.or_eq_true, beq_iff_eq] at h
  rcases h with ((h | rfl) | rfl) | rfl
  · exact (digit_upper h).1
  all_goals decide

theorem mantissa_unsigned {s : Str} {x : ℚ} (h : Unsigned s x) : mantissa s = some x := by
  cases h with
  | int _ hd hn =>
    unfold mantissa
    rw [(takeWhile_all hd).1, (takeWhile_all hd).2]
    simp [hn]
  | point ip fp hi hf hn =>
    have hs : ∀ c ∈ ('.' :: fp).head?, c.isDigit = false := by simp
    unfold mantissa
    rw [(takeWhile_append_stop hi hs).1, (takeWhile_append_stop hi hs).2]
    simp only
    rw [if_pos ⟨trivial, by rw [List.all_eq_true]; exact hf, hn⟩]
    rfl

theorem unsigned_num {s : Str} {x : ℚ} (h : Unsigned s x) : s ≠ [] ∧ ∀ c ∈ s, isNumChar c = true := by
  cases h with
  | int _ hd hn => exact ⟨hn, fun c hc => digit_num (hd c hc)⟩
  | point ip fp hi hf hn =>
    refine ⟨by simp, fun c hc => ?_⟩
    rw [List.mem_append, List.mem_cons] at hc
    rcases hc with hc | rfl | hc
    · exact digit_num (hi c hc)
    · decide
    · exact digit_num (hf c hc)

theorem unsigned_head {s : Str} {x : ℚ} (h : Unsigned s x) : signed s = (1, s) := by
  have key : ∀ c t, s = c :: t → c ≠ '-' ∧ c ≠ '+' := by
    intro c t e
    cases h with
    | int _ hd hn => exact ⟨(digit_upper (hd c (by rw [e]; simp))).2.2.1, (digit_upper (hd c (by rw [e]; simp))).2.2.2.1⟩
    | point ip fp hi hf hn =>
      cases ip with
      | nil => simp at e; rw [← e.1]; decide
      | cons y ys =>
        simp at e
        have := digit_upper (hi y (by simp))
        rw [← e.1]; exact ⟨this.2.2.1, this.2.2.2.1⟩
  cases s with
  | nil => rfl
  | cons c t =>
    obtain ⟨h1, h2⟩ := key c t rfl
    unfold signed
    split
    · rename_i h; simp at h; exact absurd h.1 h1
    · rename_i h; simp at h; exact absurd h.1 h2
    · rfl

theorem number_num {s : Str} {x : ℚ} (h : Number s x) : s ≠ [] ∧ ∀ c ∈ s, isNumChar c = true := by
  cases h with
  | unsigned _ _ h => exact unsigned_num h
  | plus t _ h =>
    refine ⟨by simp, fun c hc => ?_⟩
    rcases List.mem_cons.mp hc with rfl | hc
    · decide
    · exact (unsigned_num h).2 c hc
  | minus t _ h =>
    refine ⟨by simp, fun c hc => ?_⟩
    rcases List.mem_cons.mp hc with rfl | hc
    · decide
    · exact (unsigned_num h).2 c hc

theorem pyFloat_of_signed {s t : Str} {g : ℤ} {x : ℚ} (hs : signed s = (g, t)) (h : Unsigned t x) : pyFloat s = some (g * x) := by
  unfold pyFloat
  rw [hs]
  have he : t.dropWhile (fun c => decide (c.toUpper ≠ 'E')) = [] :=
    (takeWhile_all (fun c hc => by simpa using num_upper ((unsigned_num h).2 c hc))).2
  simp only [he]
  rw [mantissa_unsigned h]
  rfl

theorem pyFloat_number {s : Str} {x : ℚ} (h : Number s x) : pyFloat s = some x := by
  cases h with
  | unsigned _ _ h => rw [pyFloat_of_signed (unsigned_head h) h]; simp
  | plus t _ h => rw [pyFloat_of_signed (g := 1) rfl h]; simp
  | minus t y h => rw [pyFloat_of_signed (g := -1) rfl h]; simp

/-- A number with an exponent. -/
theorem pyFloat_exp {s t e : Str} {x : ℚ} {g k : ℤ} {c : Char} (hc : c.toUpper = 'E') (hs : signed s = (g, t ++ c :: e)) (h : Unsigned t x)
    (he : exponent e = some k) : pyFloat s = some (g * x * 10 ^ k) := by
  unfold pyFloat
  rw [hs]
  have hh := takeWhile_append_stop (p := fun c => decide (c.toUpper ≠ 'E')) (a := t) (b := c :: e)
    (fun c hc => by simpa using num_upper ((unsigned_num h).2 c hc)) (by simp [hc])
  simp only [hh.1, hh.2, mantissa_unsigned h, he]
  rfl

theorem power_mult (c : Char) : mult c = (power c).map (fun k => (10 : ℚ) ^ k) := by
  by_cases h : c ∈ ['f', 'p', 'P', 'n', 'N', 'u', 'µ', 'μ', 'U', 'm', 'k', 'K', 'M', 'G', 'g', 'T', 't', '%']
  · simp only [List.mem_cons, List.not_mem_nil, or_false] at h
    rcases h with rfl | rfl | rfl | rfl | rfl | rfl | rfl | rfl | rfl | rfl | rfl | rfl | rfl | rfl | rfl | rfl | rfl | rfl <;> rfl
  · simp only [List.mem_cons, List.not_mem_nil, or_false, not_or] at h
    obtain ⟨h1, h2, h3, h4, h5, h6, h7, h8, h9, h10, h11, h12, h13, h14, h15, h16, h17, h18⟩ := h
    simp [mult, power, h1, h2, h3, h4, h5, h6, h7, h8, h9, h10, h11, h12, h13, h14, h15, h16, h17, h18]

theorem power_char {c : Char} {k : ℤ} (h : power c = some k) : isNumChar c = false ∧ c.toUpper ≠ 'E' ∧ isBlank c = false ∧ isSpace c = false ∧ c.isDigit = false := by
  unfold power at h
  split_ifs at h with h1 h2 h3 h4 h5 h6 h7 h8 h9 h10
  · rcases h1 with rfl | rfl <;> decide
  · rcases h2 with rfl | rfl <;> decide
  · subst h3; decide
  · rcases h4 with rfl | rfl <;> decide
  · subst h5; decide
  · subst h6; decide
  · rcases h7 with rfl | rfl | rfl | rfl <;> decide
  · rcases h8 with rfl | rfl <;> decide
  · rcases h9 with rfl | rfl <;> decide
  · subst h10; decide

end Lemmas.FloatUnit
