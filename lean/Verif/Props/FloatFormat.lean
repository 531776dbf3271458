import Verif.Props.FloatUnit
import Mathlib.Algebra.Order.Floor.Ring
import Mathlib.Algebra.Order.Field.Power
import Mathlib.Tactic.Positivity
/-
C39: numbers written in engineering notation are read back.
-/
namespace Props.FloatFormat
open Model.FloatUnit Model.PyStr Lemmas.PyStr Lemmas.FloatUnit Props.FloatUnit
open Spec.EngNumber hiding Str

theorem showNat_length {p m : ℕ} (h1 : 10 ^ p ≤ m) (h2 : m < 10 ^ (p + 1)) : (showNat m).length = p + 1 := by
  unfold showNat
  induction p generalizing m with
  | zero =>
    rw [Nat.toDigits_of_lt_base (by simpa using h2)]; rfl
  | succ p ih =>
    have h10 : 10 ≤ m := le_trans (by rw [Nat.pow_succ]; have := Nat.one_le_pow p 10 (by omega); omega) h1
    rw [Nat.toDigits_eq_if (by omega), if_neg (by omega), List.length_append, List.length_singleton,
      ih (by rw [Nat.pow_succ] at h1; omega) (by rw [Nat.pow_succ] at h2; omega)]

theorem roundEven_near (q : ℚ) : |(roundEven q : ℚ) - q| ≤ 1 / 2 := by
  have h1 := Int.floor_le q
  have h2 := Int.lt_floor_add_one q
  unfold roundEven
  split_ifs with a b c
  · rw [abs_le]; constructor <;> linarith
  · rw [abs_le]; push_cast; constructor <;> linarith
  · rw [abs_le]; constructor <;> linarith
  · rw [abs_le]; push_cast; constructor <;> linarith

theorem roundEven_ge {q : ℚ} {n : ℤ} (h : (n : ℚ) ≤ q) : n ≤ roundEven q := by
  have := Int.le_floor.mpr h
  unfold roundEven
  split_ifs <;> omega

theorem roundEven_le {q : ℚ} {n : ℤ} (h : q < n) : roundEven q ≤ n := by
  have := Int.floor_lt.mpr h
  unfold roundEven
  split_ifs <;> omega

theorem roundEven_int (n : ℤ) : roundEven (n : ℚ) = n := by
  unfold roundEven
  simp

/-- What the digits and the exponent mean. -/
theorem sci_spec (p : ℕ) (q : ℚ) (h : 0 < q) :
    10 ^ p ≤ (sci p q).1 ∧ (sci p q).1 < 10 ^ (p + 1) ∧
    |((sci p q).1 : ℚ) * 10 ^ ((sci p q).2 - p) - q| ≤ 1 / 2 * 10 ^ (-(p : ℤ)) * q ∧
    (Int.log 10 q ≤ (sci p q).2 ∧ (sci p q).2 ≤ Int.log 10 q + 1) ∧
    (∀ (M : ℕ) (j : ℤ), M < 10 ^ (p + 1) → q = M * 10 ^ j → ((sci p q).1 : ℚ) * 10 ^ ((sci p q).2 - p) = q) := by
  set k := Int.log 10 q with hk
  have hlo : (10 : ℚ) ^ k ≤ q := by simpa using Int.zpow_log_le_self (b := 10) (by norm_num) h
  have hhi : q < (10 : ℚ) ^ (k + 1) := by simpa using Int.lt_zpow_succ_log_self (b := 10) (by norm_num) q
  have h10 : (10 : ℚ) ≠ 0 := by norm_num
  set w : ℚ := 10 ^ (k - p) with hw
  have hwpos : 0 < w := by positivity
  have e1 : (10 : ℚ) ^ k = 10 ^ p * w := by
    rw [hw, ← zpow_natCast, ← zpow_add₀ h10]; congr 1; omega
  have e2 : (10 : ℚ) ^ (k + 1) = 10 ^ (p + 1) * w := by
    rw [hw, ← zpow_natCast, ← zpow_add₀ h10]; congr 1; push_cast; omega
  have e3 : (10 : ℚ) ^ (-(p : ℤ)) * 10 ^ k = w := by
    rw [hw, ← zpow_add₀ h10]; congr 1; omega
  have b1 : ((10 ^ p : ℤ) : ℚ) ≤ q / w := by
    rw [le_div_iff₀ hwpos]; push_cast; rw [← e1]; exact hlo
  have b2 : q / w < ((10 ^ (p + 1) : ℤ) : ℚ) := by
    rw [div_lt_iff₀ hwpos]; push_cast; rw [← e2]; exact hhi
  have r1 := roundEven_ge b1
  have r2 := roundEven_le b2
  set R := roundEven (q / w) with hR
  have hnear : |(R : ℚ) * w - q| ≤ 1 / 2 * 10 ^ (-(p : ℤ)) * q := by
    have hn := roundEven_near (q / w)
    have : (R : ℚ) * w - q = ((R : ℚ) - q / w) * w := by field_simp
    rw [this, abs_mul, abs_of_pos hwpos]
    calc |(R : ℚ) - q / w| * w ≤ 1 / 2 * w := by exact mul_le_mul_of_nonneg_right hn (le_of_lt hwpos)
      _ = 1 / 2 * 10 ^ (-(p : ℤ)) * 10 ^ k := by rw [mul_assoc, e3]
      _ ≤ 1 / 2 * 10 ^ (-(p : ℤ)) * q := by
        apply mul_le_mul_of_nonneg_left hlo; positivity
  have hRpos : 0 < R := lt_of_lt_of_le (by positivity) r1
  have hRn : ((R.toNat : ℤ)) = R := Int.toNat_of_nonneg (le_of_lt hRpos)
  have hexact : ∀ (M : ℕ) (j : ℤ), M < 10 ^ (p + 1) → q = M * 10 ^ j → (R : ℚ) * w = q := by
    intro M j hM hq
    have hj : k - p ≤ j := by
      by_contra hlt
      have hj' : j ≤ k - p - 1 := by omega
      have : q < 10 ^ k := by
        calc q = M * 10 ^ j := hq
          _ < 10 ^ (p + 1) * 10 ^ j := by
            apply mul_lt_mul_of_pos_right _ (by positivity)
            exact_mod_cast hM
          _ ≤ 10 ^ (p + 1) * 10 ^ (k - p - 1) := by
            apply mul_le_mul_of_nonneg_left _ (by positivity)
            exact zpow_le_zpow_right₀ (by norm_num) hj'
          _ = 10 ^ k := by rw [← zpow_natCast, ← zpow_add₀ h10]; congr 1; push_cast; omega
      linarith
    have hint : q / w = ((M * 10 ^ (j - (k - p)).toNat : ℤ) : ℚ) := by
      rw [div_eq_iff (ne_of_gt hwpos), hq, hw]
      push_cast
      rw [mul_assoc]
      congr 1
      rw [← zpow_natCast, ← zpow_add₀ h10]; congr 1; omega
    rw [hR, hint, roundEven_int, ← hint]
    field_simp
  unfold sci
  simp only [← hk, ← hw, ← hR]
  by_cases hm : R.toNat = 10 ^ (p + 1)
  · rw [if_pos hm]
    have hRe : (R : ℚ) * w = ((10 ^ p : ℕ) : ℚ) * 10 ^ (k + 1 - p) := by
      have : (R : ℚ) = 10 ^ (p + 1) := by
        have h' : R = ((10 ^ (p + 1) : ℕ) : ℤ) := by rw [← hm]; exact hRn.symm
        rw [h']; push_cast; rfl
      rw [this, hw]
      push_cast
      rw [← zpow_natCast, ← zpow_natCast, ← zpow_add₀ h10, ← zpow_add₀ h10]; congr 1; push_cast; omega
    refine ⟨le_refl _, Nat.pow_lt_pow_right (by norm_num) (by omega), ?_, ⟨by omega, le_refl _⟩, ?_⟩
    · simp only; rw [← hRe]; exact hnear
    · intro M j hM hq; simp only; rw [← hRe]; exact hexact M j hM hq
  · rw [if_neg hm]
    have hRc : ((R.toNat : ℕ) : ℚ) = R := by exact_mod_cast congrArg (Int.cast : ℤ → ℚ) hRn
    refine ⟨?_, ?_, ?_, ⟨le_refl _, by omega⟩, ?_⟩
    · have : ((10 ^ p : ℕ) : ℤ) ≤ R.toNat := by rw [hRn]; exact_mod_cast r1
      exact_mod_cast this
    · have : ((R.toNat : ℕ) : ℤ) ≤ ((10 ^ (p + 1) : ℕ) : ℤ) := by rw [hRn]; exact_mod_cast r2
      have : R.toNat ≤ 10 ^ (p + 1) := by exact_mod_cast this
      omega
    · simp only; rw [hRc, ← hw]; exact hnear
    · intro M j hM hq; simp only; rw [hRc, ← hw]; exact hexact M j hM hq

theorem digits_show (m : ℕ) : Digits (showNat m) := showNat_digits m
theorem value_show (m : ℕ) : Nat.ofDigitChars 10 (showNat m) 0 = m := Nat.ofDigitChars_ten_toDigits

/-- Trailing zeros behind the point do not count. -/
theorem strip_zeros (s : Str) : ∃ n : ℕ, s = rstripChar '0' s ++ List.replicate n '0' := by
  unfold rstripChar
  have : ∀ t : List Char, ∃ n : ℕ, t = List.replicate n '0' ++ t.dropWhile (· = '0') := by
    intro t
    induction t with
    | nil => exact ⟨0, rfl⟩
    | cons x xs ih =>
      by_cases hx : x = '0'
      · obtain ⟨n, hn⟩ := ih
        refine ⟨n + 1, ?_⟩
        rw [List.dropWhile_cons_of_pos (by simp [hx]), List.replicate_succ, List.cons_append, ← hn, hx]
      · exact ⟨0, by rw [List.dropWhile_cons_of_neg (by simp [hx])]; rfl⟩
  obtain ⟨n, hn⟩ := this s.reverse
  refine ⟨n, ?_⟩
  have := congrArg List.reverse hn
  rw [List.reverse_reverse, List.reverse_append, List.reverse_replicate] at this
  exact this

theorem decimal_strip (ip s : Str) : decimal ip (rstripChar '0' s) = decimal ip s := by
  obtain ⟨n, hn⟩ := strip_zeros s
  have : decimal ip s = decimal ip (rstripChar '0' s ++ List.replicate n '0') := by rw [← hn]
  rw [this]
  unfold decimal
  rw [Nat.ofDigitChars_append, Nat.ofDigitChars_replicate_zero, List.length_append, List.length_replicate, pow_add]
  push_cast
  congr 1
  field_simp

theorem digits_strip {s : Str} (h : Digits s) : Digits (rstripChar '0' s) := by
  obtain ⟨n, hn⟩ := strip_zeros s
  intro c hc
  apply h
  rw [hn]
  exact List.mem_append_left _ hc

theorem decimal_eq (ip fp : Str) : decimal ip fp = (Nat.ofDigitChars 10 (ip ++ fp) 0 : ℚ) / 10 ^ fp.length := by
  unfold decimal
  rw [Nat.ofDigitChars_append, Nat.ofDigitChars_eq_ofDigitChars_zero (init := Nat.ofDigitChars 10 ip 0)]
  push_cast
  field_simp

/-- Digits, and decimals with the trailing zeros removed. -/
theorem unsigned_frac {ip fp : Str} (h1 : Digits ip) (h2 : ip ≠ []) (h3 : Digits fp) : Unsigned (ip ++ frac (rstripChar '0' fp)) (decimal ip fp) := by
  rw [← decimal_strip]
  unfold frac
  by_cases he : rstripChar '0' fp = []
  · rw [if_pos he, he, List.append_nil]
    have : decimal ip [] = Nat.ofDigitChars 10 ip 0 := by simp [decimal]
    rw [this]
    exact Unsigned.int ip h1 h2
  · rw [if_neg he]
    exact Unsigned.point ip _ h1 (digits_strip h3) (by simp [h2])

/-- Without exponent, the text `:g` is the rounded number. -/
theorem fmtGpos_plain {q : ℚ} (h : 0 < q) (hk : -4 ≤ (sci 5 q).2 ∧ (sci 5 q).2 < 6) :
    Unsigned (fmtGpos q) ((sci 5 q).1 * 10 ^ ((sci 5 q).2 - 5)) := by
  obtain ⟨s1, s2, -, -, -⟩ := sci_spec 5 q h
  have hlen := showNat_length s1 s2
  set m := (sci 5 q).1
  set k := (sci 5 q).2
  unfold fmtGpos
  simp only
  by_cases hp : 0 ≤ k ∧ k < 6
  · rw [if_pos hp]
    have hv : decimal ((showNat m).take (k.toNat + 1)) ((showNat m).drop (k.toNat + 1)) = (m : ℚ) * 10 ^ (k - 5) := by
      rw [decimal_eq, List.take_append_drop, value_show, List.length_drop, hlen, div_eq_mul_inv, ← zpow_natCast, ← zpow_neg]
      congr 2
      omega
    rw [← hv]
    apply unsigned_frac
    · exact fun c hc => digits_show m c (List.mem_of_mem_take hc)
    · intro e
      have := congrArg List.length e
      rw [List.length_take, hlen] at this
      simp at this
    · exact fun c hc => digits_show m c (List.mem_of_mem_drop hc)
  · rw [if_neg hp, if_pos ⟨hk.1, by omega⟩]
    have hz : Digits (List.replicate ((-k).toNat - 1) '0' ++ showNat m) := by
      intro c hc
      rw [List.mem_append] at hc
      rcases hc with hc | hc
      · rw [List.eq_of_mem_replicate hc]; decide
      · exact digits_show m c hc
    have hv : decimal ['0'] (List.replicate ((-k).toNat - 1) '0' ++ showNat m) = (m : ℚ) * 10 ^ (k - 5) := by
      unfold decimal
      rw [Nat.ofDigitChars_append, Nat.ofDigitChars_replicate_zero, Nat.mul_zero, value_show, List.length_append, hlen,
        List.length_replicate, div_eq_mul_inv, ← zpow_natCast, ← zpow_neg]
      have : Nat.ofDigitChars 10 ['0'] 0 = 0 := by decide
      rw [this]
      simp only [Nat.cast_zero, zero_add]
      congr 2
      omega
    rw [← hv]
    exact unsigned_frac (ip := ['0']) (by intro c hc; simp at hc; subst hc; decide) (by simp) hz

/-- The number a text of `:g` or `:E` with `p + 1` digits stands for. -/
def printed (p : ℕ) (q : ℚ) : ℚ := if q < 0 then -((sci p (-q)).1 * 10 ^ ((sci p (-q)).2 - p)) else (sci p q).1 * 10 ^ ((sci p q).2 - p)

theorem printed_near (p : ℕ) {q : ℚ} (h : q ≠ 0) : |printed p q - q| ≤ 1 / 2 * 10 ^ (-(p : ℤ)) * |q| := by
  unfold printed
  split
  · rename_i hn
    have := (sci_spec p (-q) (by linarith)).2.2.1
    rw [abs_of_neg hn, ← abs_neg]
    rw [show -(-(((sci p (-q)).1 : ℚ) * 10 ^ ((sci p (-q)).2 - p)) - q) = ((sci p (-q)).1 : ℚ) * 10 ^ ((sci p (-q)).2 - p) - -q by ring]
    exact this
  · rename_i hn
    have hp : 0 < q := lt_of_le_of_ne (not_lt.mp hn) (Ne.symm h)
    rw [abs_of_pos hp]
    exact (sci_spec p q hp).2.2.1

theorem printed_exact (p : ℕ) {q : ℚ} (h : q ≠ 0) (M : ℤ) (j : ℤ) (hM : |M| < 10 ^ (p + 1)) (hq : q = M * 10 ^ j) : printed p q = q := by
  have hn : M.natAbs < 10 ^ (p + 1) := by
    have : ((M.natAbs : ℕ) : ℤ) < ((10 ^ (p + 1) : ℕ) : ℤ) := by rw [Int.natCast_natAbs]; push_cast; exact hM
    exact_mod_cast this
  have hcast : ((M.natAbs : ℕ) : ℚ) = |(M : ℚ)| := by rw [Nat.cast_natAbs, Int.cast_abs]
  have hj : (0 : ℚ) < 10 ^ j := by positivity
  unfold printed
  split
  · rename_i hneg
    have hMneg : (M : ℚ) < 0 := by
      by_contra hge
      have : 0 ≤ q := by rw [hq]; exact mul_nonneg (not_lt.mp hge) (le_of_lt hj)
      linarith
    rw [(sci_spec p (-q) (by linarith)).2.2.2.2 M.natAbs j hn (by rw [hcast, abs_of_neg hMneg, hq]; ring)]
    ring
  · rename_i hneg
    have hp : 0 < q := lt_of_le_of_ne (not_lt.mp hneg) (Ne.symm h)
    have hMpos : 0 ≤ (M : ℚ) := by
      by_contra hlt
      have : q < 0 := by rw [hq]; exact mul_neg_of_neg_of_pos (not_le.mp hlt) hj
      linarith
    exact (sci_spec p q hp).2.2.2.2 M.natAbs j hn (by rw [hcast, abs_of_nonneg hMpos]; exact hq)

theorem log_range {q : ℚ} (h : 0 < q) (h1 : 1 / 2 ≤ q) (h2 : q < 2000) : -4 ≤ (sci 5 q).2 ∧ (sci 5 q).2 < 6 := by
  obtain ⟨-, -, -, ⟨g1, g2⟩, -⟩ := sci_spec 5 q h
  have a : -1 ≤ Int.log 10 q := (Int.zpow_le_iff_le_log (b := 10) (by norm_num) h).mp (by norm_num; linarith)
  have b : Int.log 10 q < 4 := (Int.lt_zpow_iff_log_lt (b := 10) (by norm_num) h).mp (by norm_num; linarith)
  omega

theorem fmtG_number {q : ℚ} (h : q ≠ 0) (h1 : 1 / 2 ≤ |q|) (h2 : |q| < 2000) : Number (fmtG q) (printed 5 q) := by
  unfold fmtG printed
  rw [if_neg h]
  by_cases hn : q < 0
  · rw [if_pos hn, if_pos hn]
    rw [abs_of_neg hn] at h1 h2
    exact Number.minus _ _ (fmtGpos_plain (by linarith) (log_range (by linarith) h1 h2))
  · rw [if_neg hn, if_neg hn]
    have hp : 0 < q := lt_of_le_of_ne (not_lt.mp hn) (Ne.symm h)
    rw [abs_of_pos hp] at h1 h2
    exact Number.unsigned _ _ (fmtGpos_plain hp (log_range hp h1 h2))

theorem fmtEpos_shape {q : ℚ} (h : 0 < q) : ∃ (n s d : Str) (x : ℚ) (g : ℤ), fmtEpos q = n ++ 'E' :: (s ++ d) ∧ Unsigned n x ∧ Sign s g ∧ Digits d ∧
    d ≠ [] ∧ x * 10 ^ (g * (Nat.ofDigitChars 10 d 0 : ℤ)) = (sci 6 q).1 * 10 ^ ((sci 6 q).2 - 6) := by
  obtain ⟨s1, s2, -, -, -⟩ := sci_spec 6 q h
  have hlen := showNat_length s1 s2
  set m := (sci 6 q).1
  set k := (sci 6 q).2
  have hn : Unsigned ((showNat m).take 1 ++ '.' :: (showNat m).drop 1) (decimal ((showNat m).take 1) ((showNat m).drop 1)) := by
    apply Unsigned.point
    · exact fun c hc => digits_show m c (List.mem_of_mem_take hc)
    · exact fun c hc => digits_show m c (List.mem_of_mem_drop hc)
    · rintro ⟨-, e⟩
      have := congrArg List.length e
      rw [List.length_drop, hlen] at this
      simp at this
  have hv : decimal ((showNat m).take 1) ((showNat m).drop 1) = (m : ℚ) * 10 ^ (-6 : ℤ) := by
    rw [decimal_eq, List.take_append_drop, value_show, List.length_drop, hlen, div_eq_mul_inv, ← zpow_natCast, ← zpow_neg]
    rfl
  have hd : ∀ z : ℕ, Digits (if z < 10 then '0' :: showNat z else showNat z) ∧ (if z < 10 then '0' :: showNat z else showNat z) ≠ [] ∧
      Nat.ofDigitChars 10 (if z < 10 then '0' :: showNat z else showNat z) 0 = z := by
    intro z
    by_cases hz : z < 10
    · rw [if_pos hz]
      refine ⟨?_, by simp, ?_⟩
      · intro c hc
        rcases List.mem_cons.mp hc with rfl | hc
        · decide
        · exact digits_show z c hc
      · rw [Nat.ofDigitChars_cons]; simpa using value_show z
    · rw [if_neg hz]
      exact ⟨digits_show z, showNat_ne z, value_show z⟩
  obtain ⟨d1, d2, d3⟩ := hd k.natAbs
  have h10 : (10 : ℚ) ≠ 0 := by norm_num
  by_cases hk : k < 0
  · refine ⟨_, ['-'], _, _, -1, ?_, hn, Sign.minus, d1, d2, ?_⟩
    · simp [fmtEpos, expText, m, k, hk]
    · rw [d3, hv, mul_assoc, ← zpow_add₀ h10]; congr 2; omega
  · refine ⟨_, ['+'], _, _, 1, ?_, hn, Sign.plus, d1, d2, ?_⟩
    · simp [fmtEpos, expText, m, k, hk]
    · rw [d3, hv, mul_assoc, ← zpow_add₀ h10]; congr 2; omega

theorem fmtE_parse {q : ℚ} (h : q ≠ 0) {u : Str} (hu : UnitText u) (hv : EndVisible u) : parse (fmtE q ++ u) = some (printed 6 q, u) := by
  have hux : ∀ c ∈ u.head?, isExpChar c = false := by
    intro c hc
    obtain ⟨g1, g2, g3, g4, g5, g6, g7, g8, g9, g10, g11⟩ := hu c hc
    simp [isExpChar, g1, g4, g5, g9]
  have hub : u.dropWhile isBlank = u := by
    cases u with
    | nil => rfl
    | cons c t =>
      obtain ⟨g1, g2, g3, g4, g5, g6, g7, g8, g9, g10, g11⟩ := hu c (by simp)
      simp [isBlank, g6, g7]
  unfold fmtE printed
  by_cases hn : q < 0
  · rw [if_pos hn, if_pos hn]
    obtain ⟨n, s, d, x, g, e, h1, h2, h3, h4, h5⟩ := fmtEpos_shape (q := -q) (by linarith)
    have := C40_scientific ('-' :: n) s d u (-x) g 'E' (Number.minus _ _ h1) (Or.inr rfl) h2 h3 h4 hux hv
    rw [hub, neg_mul, h5] at this
    rw [e]
    simpa using this
  · rw [if_neg hn, if_neg hn]
    have hp : 0 < q := lt_of_le_of_ne (not_lt.mp hn) (Ne.symm h)
    obtain ⟨n, s, d, x, g, e, h1, h2, h3, h4, h5⟩ := fmtEpos_shape hp
    have := C40_scientific n s d u x g 'E' (Number.unsigned _ _ h1) (Or.inr rfl) h2 h3 h4 hux hv
    rw [hub, h5] at this
    rw [e]
    simpa using this

/-- The logarithm is computed well enough: what is printed before the suffix is between 0.5 and 2000. -/
def Near (lg : ℚ → ℤ) : Prop := ∀ q : ℚ, q ≠ 0 → 1 / 2 ≤ |q| * 1000 ^ (-(lg q)) ∧ |q| * 1000 ^ (-(lg q)) < 2000

/-- The exact logarithm is good enough, and so is one that is off near the powers of 1000. -/
theorem near_exact : Near exactLog := by
  intro q hq
  have hp : 0 < |q| := abs_pos.mpr hq
  have h1 : (1000 : ℚ) ^ exactLog q ≤ |q| := by simpa [exactLog] using Int.zpow_log_le_self (b := 1000) (by norm_num) hp
  have h2 : |q| < (1000 : ℚ) ^ (exactLog q + 1) := by simpa [exactLog] using Int.lt_zpow_succ_log_self (b := 1000) (by norm_num) |q|
  have hz : (0 : ℚ) < 1000 ^ exactLog q := by positivity
  rw [zpow_add₀ (by norm_num), zpow_one] at h2
  rw [zpow_neg, ← div_eq_mul_inv]
  constructor
  · rw [le_div_iff₀ hz]; linarith
  · rw [div_lt_iff₀ hz]; linarith

/-- The digits printed: 7 of them in scientific notation, otherwise 6 of the scaled number. -/
theorem format_parse (lg : ℚ → ℤ) (hl : Near lg) (q : ℚ) (hq : q ≠ 0) (u : Str) (hu : UnitText u) (hv : EndVisible u) :
    parse (strUnit lg q u) = some (printed 5 (q * 1000 ^ (-(lg q))) * 1000 ^ (lg q), u) ∨ parse (strUnit lg q u) = some (printed 6 q, u) := by
  obtain ⟨n1, n2⟩ := hl q hq
  have hz : (0 : ℚ) < 1000 ^ (-(lg q)) := by positivity
  have hub : u.dropWhile isBlank = u := by
    cases u with
    | nil => rfl
    | cons c t =>
      obtain ⟨g1, g2, g3, g4, g5, g6, g7, g8, g9, g10, g11⟩ := hu c (by simp)
      simp [isBlank, g6, g7]
  have hud : ∀ d ∈ u.head?, d.isDigit = false := fun d hd => (hu d hd).1
  have hne : ¬ GoesOnEg u := by
    intro hg
    match u with
    | [] => exact hg
    | [a] => exact hg
    | a :: b :: t =>
      obtain ⟨g1, g2, g3, g4, g5, g6, g7, g8, g9, g10, g11⟩ := hu a (by simp)
      exact (upper_not g8 g9 g10 g11).1 hg.1
  unfold strUnit formatEng
  rw [if_neg hq]
  by_cases h0 : lg q = 0
  · rw [if_pos h0]
    left
    rw [h0] at n1 n2 ⊢
    simp only [neg_zero, zpow_zero, mul_one] at n1 n2 ⊢
    have := C40_plain (fmtG q) [] u _ (fmtG_number hq n1 n2) (by simp [Blanks]) hu (fun _ => rfl) hv
    simpa using this
  · rw [if_neg h0]
    have hqs : q * 1000 ^ (-(lg q)) ≠ 0 := mul_ne_zero hq (ne_of_gt hz)
    have habs : |q * 1000 ^ (-(lg q))| = |q| * 1000 ^ (-(lg q)) := by rw [abs_mul, abs_of_pos hz]
    have hnum := fmtG_number hqs (by rw [habs]; exact n1) (by rw [habs]; exact n2)
    have hb : Blanks [] := by simp [Blanks]
    have e1000 : ∀ e : ℤ, (10 : ℚ) ^ (3 * e) = 1000 ^ e := fun e => by rw [zpow_mul]; norm_num
    have key : ∀ (c : Char) (e : ℤ), power c = some (3 * e) → lg q = e → 
        parse (fmtG (q * 1000 ^ (-(lg q))) ++ [c] ++ u) = some (printed 5 (q * 1000 ^ (-(lg q))) * 1000 ^ (lg q), u) := by
      intro c e hc he
      have := C40_multiplier _ [] u _ c (3 * e) hnum hb hc (fun h => hne h.2) hud hv
      rw [hub, e1000] at this
      rw [he] at this ⊢
      simpa using this
    cases hs : suffix (lg q) with
    | none => right; exact fmtE_parse hq hu hv
    | some s =>
      left
      simp only
      unfold suffix at hs
      split_ifs at hs with a1 a2 a3 a4 a5 a6 a7 a8 a9
      all_goals cases hs
      · exact key 'm' _ rfl a1
      · exact key 'u' _ rfl a2
      · exact key 'n' _ rfl a3
      · exact key 'p' _ rfl a4
      · exact key 'f' _ rfl a5
      · exact key 'k' _ rfl a6
      · have := C40_meg _ [] u _ 'e' 'g' hnum hb (Or.inl rfl) (Or.inl rfl) hud hv
        have e6 : (10 : ℚ) ^ (6 : ℤ) = 1000 ^ (2 : ℤ) := by norm_num
        rw [hub, e6] at this
        rw [a7] at this ⊢
        simpa using this
      · exact key 'g' _ rfl a8
      · exact key 't' _ rfl a9

/-- C39: a number printed by format_eng, alone or with a unit behind it, is read back by scan_eng as the number to the printed
precision, half a unit in the sixth digit, with this unit; the suffix always stands for the power of ten the number was divided by. -/
theorem C39_round_trip (lg : ℚ → ℤ) (hl : Near lg) (q : ℚ) (hq : q ≠ 0) (u : Str) (hu : UnitText u) (hv : EndVisible u) :
    ∃ r : ℚ, parse (strUnit lg q u) = some (r, u) ∧ |r - q| ≤ 5 / 1000000 * |q| := by
  rcases format_parse lg hl q hq u hu hv with h | h
  · refine ⟨_, h, ?_⟩
    have hz : (0 : ℚ) < 1000 ^ (lg q) := by positivity
    have hi : (1000 : ℚ) ^ (-(lg q)) * 1000 ^ (lg q) = 1 := by rw [← zpow_add₀ (by norm_num)]; simp
    have hqs : q * 1000 ^ (-(lg q)) ≠ 0 := mul_ne_zero hq (by positivity)
    have := printed_near 5 hqs
    have e : printed 5 (q * 1000 ^ (-(lg q))) * 1000 ^ (lg q) - q = (printed 5 (q * 1000 ^ (-(lg q))) - q * 1000 ^ (-(lg q))) * 1000 ^ (lg q) := by
      rw [sub_mul, mul_assoc q, hi, mul_one]
    rw [e, abs_mul, abs_of_pos hz]
    calc _ ≤ (1 / 2 * 10 ^ (-((5 : ℕ) : ℤ)) * |q * 1000 ^ (-(lg q))|) * 1000 ^ (lg q) := mul_le_mul_of_nonneg_right this (le_of_lt hz)
      _ = 5 / 1000000 * |q| := by
        rw [abs_mul, abs_of_pos (show (0 : ℚ) < 1000 ^ (-(lg q)) by positivity)]
        rw [show (1 / 2 * 10 ^ (-((5 : ℕ) : ℤ)) * (|q| * 1000 ^ (-(lg q)))) * (1000 : ℚ) ^ (lg q) =
          1 / 2 * 10 ^ (-((5 : ℕ) : ℤ)) * |q| * (1000 ^ (-(lg q)) * 1000 ^ (lg q)) by ring, hi]
        norm_num
  · refine ⟨_, h, (printed_near 6 hq).trans ?_⟩
    apply mul_le_mul_of_nonneg_right _ (abs_nonneg q)
    norm_num

/-- C39: a number with at most six significant digits is read back exactly. -/
theorem C39_exact (lg : ℚ → ℤ) (hl : Near lg) (M j : ℤ) (hM : |M| < 1000000) (h0 : M ≠ 0) (u : Str) (hu : UnitText u) (hv : EndVisible u) :
    parse (strUnit lg (M * 10 ^ j) u) = some ((M : ℚ) * 10 ^ j, u) := by
  have hq : (M : ℚ) * 10 ^ j ≠ 0 := mul_ne_zero (by exact_mod_cast h0) (by positivity)
  rcases format_parse lg hl _ hq u hu hv with h | h
  · rw [h]
    have hqs : (M : ℚ) * 10 ^ j * 1000 ^ (-(lg (M * 10 ^ j))) ≠ 0 := mul_ne_zero hq (by positivity)
    have e : (M : ℚ) * 10 ^ j * 1000 ^ (-(lg (M * 10 ^ j))) = M * 10 ^ (j - 3 * lg (M * 10 ^ j)) := by
      rw [mul_assoc]
      congr 1
      rw [show (1000 : ℚ) = 10 ^ (3 : ℤ) by norm_num, ← zpow_mul, ← zpow_add₀ (by norm_num)]
      congr 1; ring
    rw [printed_exact 5 hqs M _ (by simpa using hM) e]
    congr 2
    rw [mul_assoc, ← zpow_add₀ (by norm_num)]
    simp
  · rw [h, printed_exact 6 hq M j (lt_trans hM (by norm_num)) rfl]

/-- C39: zero. -/
theorem C39_zero (lg : ℚ → ℤ) : scanEng (formatEng lg 0) = some 0 := by
  have : formatEng lg 0 = ['0'] := by simp [formatEng, fmtG]
  rw [this]
  decide +kernel

/-- C39: what format_eng is used for: scan_eng gives the number back. -/
theorem C39_scan_format (lg : ℚ → ℤ) (hl : Near lg) (q : ℚ) :
    ∃ r : ℚ, scanEng (formatEng lg q) = some r ∧ |r - q| ≤ 5 / 1000000 * |q| := by
  by_cases hq : q = 0
  · subst hq; exact ⟨0, C39_zero lg, by simp⟩
  · obtain ⟨r, h1, h2⟩ := C39_round_trip lg hl q hq [] (by simp [UnitText]) (by simp [EndVisible])
    refine ⟨r, ?_, h2⟩
    unfold strUnit at h1
    rw [List.append_nil] at h1
    unfold scanEng
    rw [h1]; rfl

/-- C39 (finding): a number of kelvins, or of percents, is printed as text that reads as another number. -/
theorem C39_kelvin_witness :
    strUnit exactLog 5 ['K'] = ['5', 'K'] ∧ scanEng ['5', 'K'] = some 5000 ∧
    strUnit exactLog 5 ['%'] = ['5', '%'] ∧ scanEng ['5', '%'] = some (1 / 20) := by
  refine ⟨by decide +kernel, by decide +kernel, by decide +kernel, by decide +kernel⟩

example : Near exactLog ∧ UnitText ['V'] ∧ formatEng exactLog (-47 / 10000000) = "-4.7u".toList ∧
    formatEng exactLog 999999999 = "1000Meg".toList ∧ formatEng exactLog (10 ^ 20) = "1.000000E+20".toList :=
  ⟨near_exact, by intro c hc; simp at hc; subst hc; decide, by decide +kernel, by decide +kernel, by decide +kernel⟩

end Props.FloatFormat
