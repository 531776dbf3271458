import Mathlib.Data.Rat.Defs
import Mathlib.Algebra.Order.Ring.Unbundled.Rat
import Mathlib.Algebra.Field.Rat
/-
Model of /repo/spicelib/utils/sweep_iterators.py.

Simplification: Python `int | float` values are exact rationals (`ℚ`); IEEE rounding is not modelled.
-/
namespace Model.Sweep

/-- Fields of a `sweep` object.  BaseIterator.__init__ (sweep_iterators.py 32-40) and
`sweep.__init__` (62-71): `start`, `stop`, `step`, `niter`, `finished`. -/
structure Lin where
  start : ℚ
  stop : ℚ
  step : ℚ
  niter : ℕ
  finished : Bool

/-- `sweep.__init__(start, stop, step)` (sweep_iterators.py 62-71, calling 32-40).
`none` models the `AssertionError` of line 65. -/
def Lin.new (start : ℚ) (stop : Option ℚ) (step : ℚ) : Option Lin :=
  -- BaseIterator.__init__, lines 33-38
  let (s0, e0) := match stop with
    | none => ((0 : ℚ), start)
    | some e => (start, e)
  if step = 0 then none                       -- line 65
  else if step < 0 ∧ s0 < e0 then              -- line 66
    some { start := e0, stop := s0, step := step, niter := 0, finished := false }
  else if step > 0 ∧ e0 < s0 then              -- line 69
    some { start := s0, stop := e0, step := -step, niter := 0, finished := false }
  else
    some { start := s0, stop := e0, step := step, niter := 0, finished := false }

/-- `sweep.__iter__` (sweep_iterators.py 73-77 and 42-44): resets and returns the same object. -/
def Lin.iter (s : Lin) : Lin := { s with niter := 0, finished := false }

/-- `sweep.__next__` (sweep_iterators.py 79-86). `none` models `StopIteration`. -/
def Lin.next (s : Lin) : Option ℚ × Lin :=
  let val := s.start + (s.niter : ℚ) * s.step
  let s1 := { s with niter := s.niter + 1 }
  if (s.step > 0 ∧ val ≤ s.stop) ∨ (s.step < 0 ∧ val ≥ s.stop) then (some val, s1)
  else (none, { s1 with finished := true })

/-- `sweep_n(start, stop, N)` (sweep_iterators.py 88-100). `none` models the `ZeroDivisionError`
for `N = 1` and the `AssertionError` raised by `sweep` when the computed step is 0. -/
def sweepN (start stop : ℚ) (N : ℤ) : Option Lin :=
  if N - 1 = 0 then none
  else Lin.new start (some stop) ((stop - start) / ((N - 1 : ℤ) : ℚ))

/-- Fields of a `sweep_log` object (sweep_iterators.py 115-126). -/
structure Log where
  start : ℚ
  stop : ℚ
  step : ℚ
  val : ℚ
  finished : Bool

/-- `sweep_log.__init__` (sweep_iterators.py 115-126). `none` models the `AssertionError` (121). -/
def Log.new (start : ℚ) (stop : Option ℚ) (step : ℚ) : Option Log :=
  let (s0, e0) := match stop with               -- lines 117-119
    | none => ((1 : ℚ), start)
    | some e => (start, e)
  if ¬ (step ≠ 1 ∧ step > 0) then none          -- line 121
  else if s0 < e0 ∧ step < 1 then               -- line 122
    some { start := e0, stop := s0, step := step, val := e0, finished := false }
  else if e0 < s0 ∧ step > 1 then               -- line 124
    some { start := s0, stop := e0, step := 1 / step, val := s0, finished := false }
  else
    some { start := s0, stop := e0, step := step, val := s0, finished := false }

/-- `sweep_log.__iter__` (sweep_iterators.py 128-131). -/
def Log.iter (s : Log) : Log := { s with val := s.start, finished := false }

/-- `sweep_log.__next__` (sweep_iterators.py 133-141). -/
def Log.next (s : Log) : Option ℚ × Log :=
  let val := s.val
  let s1 := { s with val := s.val * s.step }
  if (s.start < s.stop ∧ val ≤ s.stop) ∨ (s.start > s.stop ∧ val ≥ s.stop) then (some val, s1)
  else (none, { s1 with finished := true })

/-- Fields of a `sweep_log_n` object (sweep_iterators.py 156-160); the inherited `stop` field holds
`number_of_elements` (line 159). -/
structure LogN where
  start : ℚ
  stop : ℤ
  step : ℚ
  niter : ℕ
  finished : Bool

/-- `sweep_log_n.__init__` (sweep_iterators.py 156-160).  The ratio
`exp(log(stop/start)/(n-1))` of line 157 is a transcendental float computation: it is passed in as
`ratio`.  `none` models the exceptions raised by line 157-158: division by zero (`start = 0` or
`n = 1`), math domain error (`stop/start ≤ 0`), or a zero ratio. -/
def LogN.new (start stop : ℚ) (n : ℤ) (ratio : ℚ) : Option LogN :=
  if start = 0 ∨ stop / start ≤ 0 ∨ n - 1 = 0 ∨ ratio = 0 then none
  else some { start := start, stop := n, step := ratio, niter := 0, finished := false }

/-- `sweep_log_n.__iter__` (sweep_iterators.py 162-165). -/
def LogN.iter (s : LogN) : LogN := { s with niter := 0, finished := false }

/-- `sweep_log_n.__next__` (sweep_iterators.py 167-174). -/
def LogN.next (s : LogN) : Option ℚ × LogN :=
  if (s.niter : ℤ) < s.stop then
    (some (s.start * s.step ^ s.niter), { s with niter := s.niter + 1 })
  else (none, { s with finished := true })

end Model.Sweep
