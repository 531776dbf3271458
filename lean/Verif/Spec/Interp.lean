import Mathlib.Data.Rat.Defs
import Mathlib.Algebra.Order.Field.Rat
/-
Specification of piecewise linear interpolation, independent of the code.
-/
namespace Spec.Interp

/-- The polyline through the points `(xs[k], ys[k])` takes the value `v` at abscissa `t`: either `t` is one of the
abscissas and `v` is the sample there, or `t` lies strictly between two consecutive abscissas, a fraction `f` of the
way, and `v` is the same fraction of the way between the two samples. -/
def OnPolyline (xs ys : List Rat) (t v : Rat) : Prop :=
  (∃ k : Nat, xs[k]? = some t ∧ ys[k]? = some v) ∨
  (∃ (k : Nat) (x0 x1 y0 y1 f : Rat), xs[k]? = some x0 ∧ xs[k + 1]? = some x1 ∧ ys[k]? = some y0 ∧ ys[k + 1]? = some y1 ∧
    0 < f ∧ f < 1 ∧ t = x0 + f * (x1 - x0) ∧ v = y0 + f * (y1 - y0))

end Spec.Interp
