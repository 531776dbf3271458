import Mathlib.Algebra.Module.Rat
import Mathlib.Algebra.Order.Ring.Rat
import Mathlib.Data.List.Forall2
/-
Piecewise linear curves, axes and names of merged traces. Independent of the model of the merging.
-/
namespace Spec.RawMerge
abbrev Str := List Char
variable {V : Type} [AddCommGroup V] [Module ℚ V]

/-- The curve through the points `(xs[k], ys[k])` takes the value `v` at `t`: `t` lies between two neighbouring
abscissas and `v` divides the two samples in the same proportion. -/
def OnCurve (xs : List ℚ) (ys : List V) (t : ℚ) (v : V) : Prop :=
  ∃ (k : Nat) (x0 x1 : ℚ) (y0 y1 : V), xs[k]? = some x0 ∧ xs[k + 1]? = some x1 ∧ ys[k]? = some y0 ∧ ys[k + 1]? = some y1 ∧
    x0 ≤ t ∧ t ≤ x1 ∧ v = y0 + ((t - x0) / (x1 - x0)) • (y1 - y0)

/-- `t` lies before the curve and `v` continues its first segment. -/
def BeforeCurve (xs : List ℚ) (ys : List V) (t : ℚ) (v : V) : Prop :=
  ∃ (x0 x1 : ℚ) (y0 y1 : V), xs[0]? = some x0 ∧ xs[1]? = some x1 ∧ ys[0]? = some y0 ∧ ys[1]? = some y1 ∧
    t < x0 ∧ v = y0 + ((t - x0) / (x1 - x0)) • (y1 - y0)

/-- Strictly increasing. -/
def Rising (xs : List ℚ) : Prop := xs.Pairwise (· < ·)

/-- Neighbouring points are at least `gap` apart. -/
def Spaced (gap : ℚ) (xs : List ℚ) : Prop :=
  ∀ (k : Nat) (x y : ℚ), xs[k]? = some x → xs[k + 1]? = some y → x + gap ≤ y

/-- The name of a trace and the name it gets with a tag: the tag goes inside the brackets of a voltage or a current. -/
inductive Tagged (tag : Str) : Str → Str → Prop
  | inside (letter : Char) (net rest : Str) : letter = 'V' ∨ letter = 'v' ∨ letter = 'I' ∨ letter = 'i' → net ≠ [] → ')' ∉ net →
      Tagged tag (letter :: '(' :: (net ++ ')' :: rest)) (letter :: '(' :: (net ++ '_' :: tag ++ [')']))
  | behind (name : Str) : (¬ ∃ (letter : Char) (net rest : Str), (letter = 'V' ∨ letter = 'v' ∨ letter = 'I' ∨ letter = 'i') ∧
      net ≠ [] ∧ ')' ∉ net ∧ name = letter :: '(' :: (net ++ ')' :: rest)) → Tagged tag name (name ++ '_' :: tag)

/-- The name of an imported trace. -/
def NamedAs (tag : Option Str) (name given : Str) : Prop :=
  (tag = none ∧ given = name) ∨ ∃ t, tag = some t ∧ Tagged t name given

end Spec.RawMerge
