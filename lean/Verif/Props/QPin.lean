import Verif.Model.QPin
import Mathlib.Tactic.Linarith
import Mathlib.Tactic.IntervalCases
import Mathlib.Tactic.NormNum

/-! C68: where the pins of a turned or mirrored QSPICE component are. -/
namespace Props.QPin
open Model.QPin

/-- A pin turned by `o` eighths of a full turn, on the grid: a quarter turn maps (x, y) to (-y, x); an eighth maps it to
(x - y, x + y), which is 1.414… times further away, as QSPICE draws it. -/
def turned (px py : ℤ) : ℕ → ℤ × ℤ
  | 0 => (px, py)
  | 1 => (px - py, px + py)
  | 2 => (-py, px)
  | 3 => (-px - py, px - py)
  | 4 => (-px, -py)
  | 5 => (py - px, -px - py)
  | 6 => (py, -px)
  | _ => (px + py, py - px)

theorem sqrt_arg (px py : ℤ) :
    Real.sqrt ((px : ℝ) ^ 2 + (py : ℝ) ^ 2) * Real.cos (Complex.arg ⟨px, py⟩) = px ∧
    Real.sqrt ((px : ℝ) ^ 2 + (py : ℝ) ^ 2) * Real.sin (Complex.arg ⟨px, py⟩) = py := by
  have hn : ‖(⟨px, py⟩ : ℂ)‖ = Real.sqrt ((px : ℝ) ^ 2 + (py : ℝ) ^ 2) := by
    rw [Complex.norm_eq_sqrt_sq_add_sq]
  rw [← hn]
  exact ⟨Complex.norm_mul_cos_arg _, Complex.norm_mul_sin_arg _⟩

/-- The cosine and sine of eighths of a turn. -/
theorem eighth (o : ℕ) (ho : o < 8) : ∃ c s : ℤ, ((o * 45 : ℕ) : ℝ) * (Real.pi / 180) = o * (Real.pi / 4) ∧
    Real.cos (o * (Real.pi / 4)) = c * (if o % 2 = 1 then Real.sqrt 2 / 2 else 1) ∧
    Real.sin (o * (Real.pi / 4)) = s * (if o % 2 = 1 then Real.sqrt 2 / 2 else 1) ∧
    ∀ px py : ℤ, turned px py o = (c * px - s * py, s * px + c * py) := by
  have hc : Real.cos (Real.pi / 4) = Real.sqrt 2 / 2 := Real.cos_pi_div_four
  have hs : Real.sin (Real.pi / 4) = Real.sqrt 2 / 2 := Real.sin_pi_div_four
  have hd : ((o * 45 : ℕ) : ℝ) * (Real.pi / 180) = o * (Real.pi / 4) := by push_cast; ring
  interval_cases o
  · exact ⟨1, 0, hd, by simp, by simp, by intro px py; simp [turned]⟩
  · exact ⟨1, 1, hd, by simp [hc], by simp [hs], by intro px py; simp [turned]⟩
  · refine ⟨0, 1, hd, ?_, ?_, by intro px py; simp [turned]⟩
    · rw [show ((2 : ℕ) : ℝ) * (Real.pi / 4) = Real.pi / 2 by push_cast; ring]; simp
    · rw [show ((2 : ℕ) : ℝ) * (Real.pi / 4) = Real.pi / 2 by push_cast; ring]; simp
  · refine ⟨-1, 1, hd, ?_, ?_, by intro px py; simp only [turned]; ring_nf⟩
    · rw [show ((3 : ℕ) : ℝ) * (Real.pi / 4) = Real.pi - Real.pi / 4 by push_cast; ring, Real.cos_pi_sub, hc]; simp
    · rw [show ((3 : ℕ) : ℝ) * (Real.pi / 4) = Real.pi - Real.pi / 4 by push_cast; ring, Real.sin_pi_sub, hs]; simp
  · refine ⟨-1, 0, hd, ?_, ?_, by intro px py; simp [turned]⟩
    · rw [show ((4 : ℕ) : ℝ) * (Real.pi / 4) = Real.pi by push_cast; ring]; simp
    · rw [show ((4 : ℕ) : ℝ) * (Real.pi / 4) = Real.pi by push_cast; ring]; simp
  · refine ⟨-1, -1, hd, ?_, ?_, by intro px py; simp only [turned]; ring_nf⟩
    · rw [show ((5 : ℕ) : ℝ) * (Real.pi / 4) = Real.pi / 4 + Real.pi by push_cast; ring, Real.cos_add_pi, hc]; simp
    · rw [show ((5 : ℕ) : ℝ) * (Real.pi / 4) = Real.pi / 4 + Real.pi by push_cast; ring, Real.sin_add_pi, hs]; simp
  · refine ⟨0, -1, hd, ?_, ?_, by intro px py; simp [turned]⟩
    · rw [show ((6 : ℕ) : ℝ) * (Real.pi / 4) = Real.pi / 2 + Real.pi by push_cast; ring, Real.cos_add_pi]; simp
    · rw [show ((6 : ℕ) : ℝ) * (Real.pi / 4) = Real.pi / 2 + Real.pi by push_cast; ring, Real.sin_add_pi]; simp
  · refine ⟨1, -1, hd, ?_, ?_, by intro px py; simp only [turned]; ring_nf⟩
    · rw [show ((7 : ℕ) : ℝ) * (Real.pi / 4) = 2 * Real.pi - Real.pi / 4 by push_cast; ring, Real.cos_two_pi_sub, hc]; simp
    · rw [show ((7 : ℕ) : ℝ) * (Real.pi / 4) = 2 * Real.pi - Real.pi / 4 by push_cast; ring, Real.sin_two_pi_sub, hs]; simp

/-- The factor 1.414 in place of the square root of two. -/
noncomputable def factor (o : ℕ) : ℝ := if o % 2 = 1 then 1.414 * (Real.sqrt 2 / 2) else 1

theorem factor_near (o : ℕ) : |factor o - 1| ≤ 2 / 10000 := by
  unfold factor
  have h2 : Real.sqrt 2 * Real.sqrt 2 = 2 := Real.mul_self_sqrt (by norm_num)
  have h0 : 0 ≤ Real.sqrt 2 := Real.sqrt_nonneg 2
  have hlo : 1.4142 ≤ Real.sqrt 2 := by by_contra hh; nlinarith
  have hhi : Real.sqrt 2 ≤ 1.4143 := by by_contra hh; nlinarith
  split
  · rw [abs_le]; constructor <;> linarith
  · norm_num

/-- The products, before rounding. -/
theorem products (px py : ℤ) (orientation : ℕ) :
    hyp px py orientation * Real.cos (theta px py (orientation % 8)) = factor orientation * ((turned px py (orientation % 8)).1 : ℤ) ∧
    hyp px py orientation * Real.sin (theta px py (orientation % 8)) = factor orientation * ((turned px py (orientation % 8)).2 : ℤ) := by
  obtain ⟨c, s, h1, h2, h3, h4⟩ := eighth (orientation % 8) (Nat.mod_lt _ (by norm_num))
  obtain ⟨a, b⟩ := sqrt_arg px py
  have hpar : orientation % 8 % 2 = orientation % 2 := by omega
  unfold theta hyp factor
  rw [h1, Real.cos_add, Real.sin_add, h2, h3, h4, hpar]
  generalize hR : Real.sqrt ((px : ℝ) ^ 2 + (py : ℝ) ^ 2) = R at a b
  generalize Complex.arg ⟨px, py⟩ = φ at a b
  by_cases ho : orientation % 2 = 1
  · simp only [if_pos ho]
    push_cast
    constructor
    · have : R * 1.414 * (Real.cos φ * (c * (Real.sqrt 2 / 2)) - Real.sin φ * (s * (Real.sqrt 2 / 2))) =
          1.414 * (Real.sqrt 2 / 2) * (c * (R * Real.cos φ) - s * (R * Real.sin φ)) := by ring
      rw [this, a, b]
    · have : R * 1.414 * (Real.sin φ * (c * (Real.sqrt 2 / 2)) + Real.cos φ * (s * (Real.sqrt 2 / 2))) =
          1.414 * (Real.sqrt 2 / 2) * (s * (R * Real.cos φ) + c * (R * Real.sin φ)) := by ring
      rw [this, a, b]
  · simp only [if_neg ho]
    push_cast
    constructor
    · have : R * (Real.cos φ * (c * 1) - Real.sin φ * (s * 1)) = 1 * (c * (R * Real.cos φ) - s * (R * Real.sin φ)) := by ring
      rw [this, a, b]
    · have : R * (Real.sin φ * (c * 1) + Real.cos φ * (s * 1)) = 1 * (s * (R * Real.cos φ) + c * (R * Real.sin φ)) := by ring
      rw [this, a, b]

/-- Two multiples of 100 less than 100 apart are equal. -/
theorem grid (a b : ℤ) (ha : ∃ k : ℤ, a = 100 * k) (hb : ∃ k : ℤ, b = 100 * k) (h : |(a : ℝ) - b| < 100) : a = b := by
  obtain ⟨k, rfl⟩ := ha
  obtain ⟨l, rfl⟩ := hb
  have h' : |100 * k - 100 * l| < 100 := by
    have : |((100 * k - 100 * l : ℤ) : ℝ)| < 100 := by push_cast; push_cast at h; exact h
    exact_mod_cast this
  rw [abs_lt] at h'
  omega

theorem coordinate (eps v : ℝ) (o : ℕ) (t r : ℤ) (hv : |v - factor o * t| ≤ eps) (he : eps ≤ 9) (ht : |t| ≤ 200000) (hg : ∃ k : ℤ, t = 100 * k) (hr : Rounded v r) : r = t := by
  obtain ⟨hk, hd⟩ := hr
  apply grid r t hk hg
  have hf := factor_near o
  have ht' : |(t : ℝ)| ≤ 200000 := by exact_mod_cast ht
  have h1 : |factor o * t - t| ≤ 40 := by
    have : factor o * t - t = (factor o - 1) * t := by ring
    rw [this, abs_mul]
    calc |factor o - 1| * |(t : ℝ)| ≤ (2 / 10000) * 200000 := mul_le_mul hf ht' (abs_nonneg _) (by norm_num)
      _ = 40 := by norm_num
  have e : (r : ℝ) - t = -(v - r) + (v - factor o * t) + (factor o * t - t) := by ring
  rw [e]
  have h2 := abs_add_le (-(v - r) + (v - factor o * t)) (factor o * t - t)
  have h3 := abs_add_le (-(v - r)) (v - factor o * t)
  rw [abs_neg] at h3
  linarith

theorem turned_grid (px py : ℤ) (hx : ∃ k : ℤ, px = 100 * k) (hy : ∃ k : ℤ, py = 100 * k) (o : ℕ) :
    (∃ k : ℤ, (turned px py o).1 = 100 * k) ∧ ∃ k : ℤ, (turned px py o).2 = 100 * k := by
  obtain ⟨a, rfl⟩ := hx
  obtain ⟨b, rfl⟩ := hy
  unfold turned
  split <;> refine ⟨?_, ?_⟩ <;> simp only
  · exact ⟨a, rfl⟩
  · exact ⟨b, rfl⟩
  · exact ⟨a - b, by ring⟩
  · exact ⟨a + b, by ring⟩
  · exact ⟨-b, by ring⟩
  · exact ⟨a, rfl⟩
  · exact ⟨-a - b, by ring⟩
  · exact ⟨a - b, by ring⟩
  · exact ⟨-a, by ring⟩
  · exact ⟨-b, by ring⟩
  · exact ⟨b - a, by ring⟩
  · exact ⟨-a - b, by ring⟩
  · exact ⟨b, rfl⟩
  · exact ⟨-a, by ring⟩
  · exact ⟨a + b, by ring⟩
  · exact ⟨b - a, by ring⟩

theorem turned_bound (px py : ℤ) (h : |px| + |py| ≤ 200000) (o : ℕ) : |(turned px py o).1| ≤ 200000 ∧ |(turned px py o).2| ≤ 200000 := by
  have h1 := abs_le.1 (le_refl |px|)
  have h2 := abs_le.1 (le_refl |py|)
  unfold turned
  split <;> (simp only [abs_le]; omega)

/-- Every pin on the grid of a component in any of the 16 orientations is found exactly where it is drawn, in spite of floating point
errors (up to 9 units in each product) and of the factor 1.414: turned by that many eighths, then mirrored for orientations from 8 on.
Limit: the pins are at most 200000 units from the centre in all. -/
theorem C68_pin_position (eps : ℝ) (he : eps ≤ 9) (cx cy px py : ℤ) (hx : ∃ k : ℤ, px = 100 * k) (hy : ∃ k : ℤ, py = 100 * k) (hb : |px| + |py| ≤ 200000)
    (orientation : ℕ) (x y : ℤ) (h : pinAt eps cx cy px py orientation x y) :
    y = cy + (turned px py (orientation % 8)).2 ∧
    x = if orientation ≤ 7 then cx + (turned px py (orientation % 8)).1 else cx - (turned px py (orientation % 8)).1 := by
  obtain ⟨c, s, rc, rs, ⟨hc, hs⟩, hrc, hrs, _, e1, e2⟩ := h
  obtain ⟨p1, p2⟩ := products px py orientation
  rw [p1] at hc
  rw [p2] at hs
  obtain ⟨g1, g2⟩ := turned_grid px py hx hy (orientation % 8)
  obtain ⟨b1, b2⟩ := turned_bound px py hb (orientation % 8)
  have f1 := coordinate eps c orientation _ rc hc he b1 g1 hrc
  have f2 := coordinate eps s orientation _ rs hs he b2 g2 hrs
  rw [← f1, ← f2]
  exact ⟨e1, e2⟩

/-- There always is such a position: the products themselves, rounded. -/
theorem pin_exists (cx cy px py : ℤ) (orientation : ℕ) (ho : orientation ≤ 15) : ∃ x y : ℤ, pinAt 0 cx cy px py orientation x y := by
  have hr : ∀ v : ℝ, ∃ r : ℤ, Rounded v r := by
    intro v
    refine ⟨100 * round (v / 100), ⟨_, rfl⟩, ?_⟩
    have := abs_sub_round (v / 100)
    have e : v - ((100 * round (v / 100) : ℤ) : ℝ) = 100 * (v / 100 - round (v / 100)) := by push_cast; ring
    rw [e, abs_mul]
    have : |(100 : ℝ)| = 100 := by norm_num
    rw [this]; linarith
  obtain ⟨rc, h1⟩ := hr (hyp px py orientation * Real.cos (theta px py (orientation % 8)))
  obtain ⟨rs, h2⟩ := hr (hyp px py orientation * Real.sin (theta px py (orientation % 8)))
  exact ⟨_, _, _, _, rc, rs, ⟨by simp, by simp⟩, h1, h2, ho, rfl, rfl⟩

/-- A resistor's upper pin, 200 above its centre, in a component at (1000, 0) turned by 45 degrees and mirrored. -/
example : ∃ x y : ℤ, pinAt 0 1000 0 0 200 9 x y ∧ x = 1200 ∧ y = 200 := by
  obtain ⟨x, y, h⟩ := pin_exists 1000 0 0 200 9 (by norm_num)
  have := C68_pin_position 0 (by norm_num) 1000 0 0 200 ⟨0, by norm_num⟩ ⟨2, by norm_num⟩ (by norm_num) 9 x y h
  refine ⟨x, y, h, ?_, ?_⟩
  · rw [this.2]; simp [turned]
  · rw [this.1]; simp [turned]

end Props.QPin
