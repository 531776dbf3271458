import Mathlib.Algebra.Order.Ring.Rat
/-
Closed line segments in the plane, by their usual parametric form.
-/
namespace Spec.Segment

/-- The point (px, py) lies on the closed segment from (x1, y1) to (x2, y2). -/
def OnSegment (x1 y1 x2 y2 px py : ℚ) : Prop :=
  ∃ t : ℚ, 0 ≤ t ∧ t ≤ 1 ∧ px = x1 + t * (x2 - x1) ∧ py = y1 + t * (y2 - y1)

end Spec.Segment
