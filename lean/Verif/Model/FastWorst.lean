import Mathlib.Data.Rat.Defs
import Mathlib.Algebra.Order.Ring.Unbundled.Rat
import Mathlib.Algebra.Field.Rat
/-
Model of `FastWorstCaseAnalysis.run_analysis` (/repo/spicelib/sim/tookit/fast_worst_case.py 83-313).

The circuit and the simulator are seen as a function `f` from a configuration (for each analysed element, in the
order of `elements_analysed`, whether it is at its nominal, maximum or minimum value) to the measured value, an exact
rational.  Simulations succeed and give the measurement.  The elements are assumed distinct, so that the
dictionaries `max_setting`, `min_setting` are lists of booleans.
-/
namespace Model.FastWorst

/-- `WorstCaseType` (fast_worst_case.py 30-33). -/
inductive Level | nom | max | min
  deriving DecidableEq

/-- Value of `set_ref_to(ref, max if b else min)`. -/
def level (b : Bool) : Level := if b then .max else .min

/-- Configuration in which every element is at its maximum or its minimum. -/
def conf (s : List Bool) : List Level := s.map level

/-- The configurations of the first phase (175-185): nominal, then one more element at its maximum each time. -/
def cumulative (n : ℕ) : List (List Level) :=
  (List.range (n + 1)).map (fun i => List.replicate i .max ++ List.replicate (n - i) .nom)

/-- `max_setting` (193-204): an element whose step increased the measurement. -/
def settings : List ℚ → List Bool
  | a :: b :: l => decide (b - a > 0) :: settings (b :: l)
  | _ => []

/-- Flip of one element. -/
def toggle (s : List Bool) (i : ℕ) : List Bool := s.modify i (! ·)

/-- The verification loop of the maximum (223-248) from element `i` on, `todo` elements being left. `none`: line 242,
`iterator = iterator(...)`, raises TypeError. -/
def checkMax (f : List Level → ℚ) (s : List Bool) (maxVal : ℚ) : (todo i : ℕ) → Option Unit
  | 0, _ => some ()
  | todo + 1, i => if f (conf (toggle s i)) > maxVal then none else checkMax f s maxVal todo (i + 1)

/-- The verification loop of the minimum (266-291), with at most `fuel` simulations (`none` when they do not
suffice). `n` is the number of elements, `i` the position of the iterator. -/
def checkMin (f : List Level → ℚ) (n : ℕ) : (fuel : ℕ) → List Bool → ℚ → (i : ℕ) → Option (List Bool × ℚ)
  | 0, _, _, _ => none
  | fuel + 1, s, v, i =>
    if i ≥ n then some (s, v)                                   -- StopIteration
    else if f (conf (toggle s i)) < v then checkMin f n fuel (toggle s i) (f (conf (toggle s i))) 0   -- 280-285
    else checkMin f n fuel s v (i + 1)

/-- What `run_analysis` returns (313): nominal, min_value, max_comp_values, max_value, min_comp_values; the component
values are given as settings. -/
structure Result where
  nominal : ℚ
  minValue : ℚ
  maxComp : List Bool
  maxValue : ℚ
  minComp : List Bool
  deriving DecidableEq

/-- `run_analysis` (83-313) for `n` elements. `none`: exception of line 242 (or not enough fuel). -/
def run (f : List Level → ℚ) (n fuel : ℕ) : Option Result := do
  let meas := (cumulative n).map f
  let nominal := f (List.replicate n .nom)
  let ms := settings meas                                       -- 193-204
  let maxValue := if ms.any (! ·) then f (conf ms)               -- 208-218
                  else f (List.replicate n .max)                  -- 220: new_measure, the last one
  let _ ← checkMax f ms maxValue n 0
  let mins := ms.map (! ·)                                       -- 251
  let (sMin, vMin) ← checkMin f n fuel mins (f (conf mins)) 0     -- 254-291
  some ⟨nominal, vMin, ms, maxValue, sMin⟩

end Model.FastWorst
