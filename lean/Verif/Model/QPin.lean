import Mathlib.Analysis.SpecialFunctions.Complex.Arg
/-
Where a pin of a QSPICE component is: spicelib/editor/qsch_editor.py 838-856 (_find_pin_position).

Simplification: the computer's floating point numbers are replaced by real numbers, and each product is allowed to be off by a stated
amount (`Computed`); `round(v, -2)` is any multiple of 100 at most 50 away (`Rounded`).
-/
namespace Model.QPin

/-- 841-844: `hyp = (x**2 + y**2) ** 0.5`, and `hyp *= 1.414` for odd orientations. -/
noncomputable def hyp (px py : ℤ) (orientation : ℕ) : ℝ :=
  if orientation % 2 = 1 then Real.sqrt ((px : ℝ) ^ 2 + (py : ℝ) ^ 2) * 1.414 else Real.sqrt ((px : ℝ) ^ 2 + (py : ℝ) ^ 2)

/-- 846 and 851: `math.atan2(y, x) + math.radians(o * 45)`, o being the orientation without the mirror. -/
noncomputable def theta (px py : ℤ) (o : ℕ) : ℝ := Complex.arg ⟨px, py⟩ + (o * 45 : ℕ) * (Real.pi / 180)

/-- The products of 847-848 and 852-853, computed with an error of at most `eps`. -/
def Computed (eps : ℝ) (px py : ℤ) (orientation : ℕ) (c s : ℝ) : Prop :=
  |c - hyp px py orientation * Real.cos (theta px py (orientation % 8))| ≤ eps ∧
  |s - hyp px py orientation * Real.sin (theta px py (orientation % 8))| ≤ eps

/-- `round(v, -2)` -/
def Rounded (v : ℝ) (r : ℤ) : Prop := (∃ k : ℤ, r = 100 * k) ∧ |v - r| ≤ 50

/-- 838-856: the position `(x, y)` found for a pin at `(px, py)` of a component at `(cx, cy)`; orientations above 15 raise. -/
def pinAt (eps : ℝ) (cx cy px py : ℤ) (orientation : ℕ) (x y : ℤ) : Prop :=
  ∃ (c s : ℝ) (rc rs : ℤ), Computed eps px py orientation c s ∧ Rounded c rc ∧ Rounded s rs ∧ orientation ≤ 15 ∧
    y = cy + rs ∧ x = if orientation ≤ 7 then cx + rc else cx - rc

end Model.QPin
