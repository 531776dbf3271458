import Verif.Model.PyStr
import Mathlib.Data.List.Basic
import Mathlib.Tactic.SplitIfs
/-
Facts about the Python string methods of Model.PyStr.
-/
namespace Lemmas.PyStr
open Model.PyStr

theorem dropWhile_all {α : Type} (f : α → Bool) : ∀ (a b : List α), (∀ c ∈ a, f c = true) → (a ++ b).dropWhile f = b.dropWhile f := by
  intro a
  induction a with
  | nil => intro b _; rfl
  | cons x a ih =>
    intro b h
    rw [List.cons_append, List.dropWhile_cons, if_pos (h x (by simp))]
    exact ih b (fun c hc => h c (by simp [hc]))

theorem dropWhile_none {α : Type} (f : α → Bool) (b : List α) (h : ∀ c ∈ b, f c = false) : b.dropWhile f = b := by
  cases b with
  | nil => rfl
  | cons x b => rw [List.dropWhile_cons, if_neg (by simp [h x (by simp)])]

theorem dropWhile_head {α : Type} (f : α → Bool) (x : α) (b : List α) (h : f x = false) : (x :: b).dropWhile f = x :: b := by
  rw [List.dropWhile_cons, if_neg (by simp [h])]

theorem rstripChar_clean (c : Char) (s : List Char) (h : ∀ d ∈ s, d ≠ c) : rstripChar c s = s := by
  unfold rstripChar
  rw [dropWhile_none]
  · simp
  · intro d hd; simp [h d (by simpa using hd)]

/-- Stripping white space around text without white space. -/
theorem strip_pad (a b : List Char) (ha : ∀ c ∈ a, isSpace c = true) (hb : ∀ c ∈ b, isSpace c = false) :
    strip (a ++ b) = b := by
  unfold strip lstrip rstrip
  rw [dropWhile_all _ _ _ ha, dropWhile_none _ _ hb, dropWhile_none]
  · simp
  · intro c hc; exact hb c (by simpa using hc)

theorem partition_lit (sep : Char) : ∀ (k v : List Char), (∀ c ∈ k, c ≠ sep) → partition sep (k ++ sep :: v) = (k, v) := by
  intro k
  induction k with
  | nil => intro v _; simp [partition]
  | cons c k ih =>
    intro v h
    simp only [List.cons_append, partition, if_neg (h c (by simp)), ih v (fun d hd => h d (by simp [hd]))]

theorem splitOn_clean (sep : Char) : ∀ (w : List Char), (∀ c ∈ w, c ≠ sep) → splitOn sep w = [w] := by
  intro w
  induction w with
  | nil => intro _; rfl
  | cons c w ih =>
    intro h
    rw [splitOn, if_neg (h c (by simp)), ih (fun d hd => h d (by simp [hd]))]

theorem splitOn_cons (sep : Char) : ∀ (w l : List Char), (∀ c ∈ w, c ≠ sep) →
    splitOn sep (w ++ sep :: l) = w :: splitOn sep l := by
  intro w
  induction w with
  | nil => intro l _; simp [splitOn]
  | cons c w ih =>
    intro l h
    rw [List.cons_append, splitOn, if_neg (h c (by simp)), ih l (fun d hd => h d (by simp [hd]))]

theorem digit_props (c : Char) (h : c.isDigit = true) : isSpace c = false ∧ c ≠ '\t' ∧ c ≠ '\n' ∧ c ≠ '\r' ∧ c.toNat < 128 := by
  have h2 : 48 ≤ c.toNat ∧ c.toNat ≤ 57 := by
    simp only [Char.isDigit, Bool.and_eq_true, decide_eq_true_eq] at h
    exact ⟨h.1, h.2⟩
  refine ⟨?_, ?_, ?_, ?_, by omega⟩
  · simp only [isSpace]
    simp
    omega
  all_goals
    intro he
    subst he
    simp at h2

theorem digitChar_isDigit (n : Nat) (h : n < 10) : (Nat.digitChar n).isDigit = true := by
  have : ∀ m : Fin 10, (Nat.digitChar m.val).isDigit = true := by decide
  exact this ⟨n, h⟩

theorem showNat_digits (n : Nat) : ∀ c ∈ showNat n, c.isDigit = true := by
  unfold showNat
  induction n using Nat.strongRecOn with
  | ind n ih =>
    intro c hc
    rw [Nat.toDigits_eq_if (by omega)] at hc
    split_ifs at hc with h
    · rw [List.mem_singleton] at hc; subst hc; exact digitChar_isDigit n h
    · rw [List.mem_append, List.mem_singleton] at hc
      rcases hc with hc | hc
      · exact ih (n / 10) (by omega) c hc
      · subst hc; exact digitChar_isDigit _ (by omega)

theorem showNat_ne (n : Nat) : showNat n ≠ [] := Nat.toDigits_ne_nil

theorem parse_show (n : Nat) (a : List Char) (ha : ∀ c ∈ a, isSpace c = true) : parseNat (a ++ showNat n) = some n := by
  unfold parseNat
  have hs : strip (a ++ showNat n) = showNat n :=
    strip_pad a _ ha (fun c hc => (digit_props c (showNat_digits n c hc)).1)
  simp only [hs]
  rw [if_pos ⟨showNat_ne n, by rw [List.all_eq_true]; exact showNat_digits n⟩]
  unfold showNat
  rw [Nat.ofDigitChars_ten_toDigits]

/-- Every property of the ASCII characters can be checked one by one. -/
theorem ascii_ind {P : Char → Prop} (h : ∀ n : Fin 128, P (Char.ofNat n)) (c : Char) (hc : c.toNat < 128) : P c := by
  have := h ⟨c.toNat, hc⟩
  simpa using this

theorem toUpper_big (c : Char) (h : 128 ≤ c.toNat) : c.toUpper = c := by
  unfold Char.toUpper
  rw [dif_neg]
  rintro ⟨_, h2⟩
  have h3 : c.val.toNat ≤ 122 := by simpa using UInt32.le_iff_toNat_le.mp h2
  have h4 : c.val.toNat = c.toNat := rfl
  omega

theorem toLower_big (c : Char) (h : 128 ≤ c.toNat) : c.toLower = c := by
  unfold Char.toLower
  rw [dif_neg]
  rintro ⟨_, h2⟩
  have h3 : c.val.toNat ≤ 90 := by simpa using UInt32.le_iff_toNat_le.mp h2
  have h4 : c.val.toNat = c.toNat := rfl
  omega

theorem toUpper_small (c : Char) (h : c.toNat < 128) : c.toUpper.toNat < 128 := by
  revert h
  by_cases hc : c.toNat < 128
  · intro _
    exact ascii_ind (P := fun c => c.toUpper.toNat < 128) (by decide) c hc
  · intro h; exact absurd h hc

theorem showInt_chars (n : Int) : ∀ c ∈ showInt n, c.isDigit = true ∨ c = '-' := by
  intro c hc
  cases n with
  | ofNat n => exact Or.inl (showNat_digits n c hc)
  | negSucc n =>
    rcases List.mem_cons.1 hc with rfl | hc
    · exact Or.inr rfl
    · exact Or.inl (showNat_digits _ c hc)

theorem showInt_props (n : Int) : ∀ c ∈ showInt n, isSpace c = false ∧ c ≠ ',' ∧ c ≠ '"' ∧ c ≠ '(' ∧ c ≠ ')' ∧ c ≠ 'x' ∧ c ≠ '«' ∧ c ≠ '»' ∧ c ≠ ':' := by
  intro c hc
  rcases showInt_chars n c hc with h | rfl
  · have hd := digit_props c h
    refine ⟨hd.1, ?_, ?_, ?_, ?_, ?_, ?_, ?_, ?_⟩ <;> (rintro rfl; revert h; decide)
  · decide

theorem showInt_ne (n : Int) : showInt n ≠ [] := by
  cases n with
  | ofNat n => exact showNat_ne n
  | negSucc n => simp [showInt]

theorem parseInt_show (n : Int) : parseInt (showInt n) = some n := by
  have hs : strip (showInt n) = showInt n := strip_pad [] _ (by simp) (fun c hc => (showInt_props n c hc).1)
  unfold parseInt
  rw [hs]
  cases n with
  | ofNat n =>
    show (match showNat n with
      | '-' :: d => _
      | '+' :: d => _
      | d => _) = _
    have hd := showNat_digits n
    split
    · rename_i d hq
      exact absurd (hd '-' (by rw [hq]; simp)) (by decide)
    · rename_i d hq
      exact absurd (hd '+' (by rw [hq]; simp)) (by decide)
    · rw [if_pos ⟨showNat_ne n, by rw [List.all_eq_true]; exact hd⟩]
      simp [showNat, Nat.ofDigitChars_ten_toDigits]
  | negSucc n =>
    show (if showNat (n + 1) ≠ [] ∧ (showNat (n + 1)).all Char.isDigit then _ else _) = _
    rw [if_pos ⟨showNat_ne _, by rw [List.all_eq_true]; exact showNat_digits _⟩]
    simp only [showNat, Nat.ofDigitChars_ten_toDigits]
    rfl

end Lemmas.PyStr
