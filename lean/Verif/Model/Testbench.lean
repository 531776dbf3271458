import Verif.Model.Analysis
import Mathlib.Data.Rat.Floor
import Mathlib.Algebra.Order.Floor.Ring
/-
Model of the testbench side of the tolerance analyses: worst_case.py `prepare_testbench` (68-99),
`make_sensitivity_analysis` (216-270), quick_sensitivity_analysis.py `get_sensitivity_data` (63-93) and
tolerance_deviations.py `run_testbench` (171-227).

Simplifications: the SPICE expressions written in the netlist are given their arithmetic meaning on exact
rationals; the `%g` formatting of tolerances (6 significant digits) is not modelled.  Standard deviations
(square roots) of `make_sensitivity_analysis` are not modelled.
-/
namespace Model.Testbench
open Model.Analysis

/-- `.func binary(run,idx) {floor(run/(2**idx))-2*floor(run/(2**(idx+1)))}` (worst_case.py 93). -/
def binary (run : ℤ) (idx : ℕ) : ℤ :=
  ⌊(run : ℚ) / 2 ^ idx⌋ - 2 * ⌊(run : ℚ) / 2 ^ (idx + 1)⌋

/-- The expressions put in the netlist: `{wc(nom,tol,idx)}`, `{wc1(nom,min,max,idx)}` (worst_case.py 59-61, 79-81). -/
inductive Formula
  | wc (nom : Val) (tol : ℚ) (idx : ℕ)
  | wc1 (nom : Val) (lo hi : ℚ) (idx : ℕ)
  deriving DecidableEq

/-- Value of an expression at a run number: `.func wc` and `.func wc1` (worst_case.py 94-95). A text nominal
value inside `wc` cannot be evaluated here (`none`). -/
def Formula.eval (run : ℤ) : Formula → Option Val
  | .wc nom tol idx =>
    if run < 0 then some nom
    else match nom with
      | .num q => some (.num (q * (1 + tol * (2 * (binary run idx : ℚ) - 1))))
      | .text _ => none
  | .wc1 nom lo hi idx =>
    if run < 0 then some nom
    else some (.num (if binary run idx ≠ 0 then hi else lo))

/-- What `prepare_testbench` accumulates: the index, `elements_analysed`, and the values it assigns. -/
structure Prep where
  index : ℕ
  els : List Name
  sets : List (Kind × Name × Formula)

/-- The expression for a deviation (58-61 and 78-81); `none` when the type is neither. -/
def formulaOf (v : Val) (d : Dev) (idx : ℕ) : Option Formula :=
  match d.typ with
  | .tolerance => some (.wc v d.tolerance idx)
  | .minmax => some (.wc1 v d.minVal d.maxVal idx)
  | .none => none

/-- `_set_component_deviation` and the increment of its callers (worst_case.py 51-66, 72-74, 90-91). -/
def prepComp (a : St) (p : Prep) (ref : Name) : Option Prep := do
  let (v, d) ← a.valueDev ref
  if d.isNotValid then some p
  else match formulaOf v d p.index with
    | some f => some ⟨p.index + 1, p.els ++ [ref], p.sets ++ [(.component, ref, f)]⟩
    | none => some { p with index := p.index + 1 }

/-- The loop body of worst_case.py 75-85. -/
def prepParam (a : St) (p : Prep) (x : Name × Dev) : Option Prep := do
  let v ← a.net .parameter x.1
  match formulaOf v x.2 p.index with
  | some f => some ⟨p.index + 1, p.els ++ [x.1], p.sets ++ [(.parameter, x.1, f)]⟩
  | none => some ⟨p.index + 1, p.els ++ [x.1], p.sets⟩

/-- The loop body of worst_case.py 87-91. -/
def prepDefault (a : St) (p : Prep) (ref : Name) : Option Prep :=
  if ref ∈ a.deviceDev.map Prod.fst then some p else prepComp a p ref

/-- `prepare_testbench` (worst_case.py 68-99): the assignments, `elements_analysed` and `last_run_number`. -/
def prepare (a : St) : Option (List (Kind × Name × Formula) × List Name × ℤ) := do
  let p ← (a.deviceDev.map Prod.fst).foldlM (prepComp a) ⟨0, [], []⟩
  let p ← a.paramDev.foldlM (prepParam a) p
  let p ← (defaultRefs a).foldlM (prepDefault a) p
  some (p.sets, p.els, 2 ^ p.index - 1)

/-! ### run_testbench -/

/-- The loop of tolerance_deviations.py 208-209, with at most `fuel` turns. -/
def avoidOrphans (total : ℤ) : ℕ → ℤ → ℤ
  | 0, rps => rps
  | fuel + 1, rps => if total % rps = 1 then avoidOrphans total fuel (rps + 1) else rps

/-- Python `range(start, stop, step)` for a positive step. -/
def pyRange (start stop step : ℤ) : List ℤ :=
  (List.range ((stop - start + step - 1) / step).toNat).map (fun k : ℕ => start + step * (k : ℤ))

/-- The `.step param run first last 1` ranges that `run_testbench` simulates (tolerance_deviations.py 206-217),
for `runs_per_sim ≥ 1`. -/
def batches (lastRun runsPerSim : ℤ) : List (ℤ × ℤ) :=
  let total := lastRun + 2                                          -- 206
  let rps := avoidOrphans total (total.toNat + 1) (min runsPerSim total)  -- 207-209
  (pyRange (-1) (lastRun + 1) rps).map (fun simNo =>
    (simNo, if simNo + rps - 1 > lastRun then lastRun else simNo + rps - 1))   -- 212-214

/-! ### sensitivity -/

/-- The pairs of runs compared for a bit (worst_case.py 241-245). -/
def diffPairs (nRuns bitIndex : ℕ) : List (ℕ × ℕ) :=
  ((List.range nRuns).filter (fun run => decide (run &&& (1 <<< bitIndex) = 0))).map
    (fun run => (run, run ||| (1 <<< bitIndex)))

/-- The mean difference for a bit (worst_case.py 237-246). `none`: IndexError (245) or ZeroDivisionError (246). -/
def meanDiff (wc : List ℚ) (bitIndex : ℕ) : Option ℚ := do
  let diffs ← (diffPairs wc.length bitIndex).mapM (fun p => do
    let x ← wc[p.1]?
    let y ← wc[p.2]?
    some |x - y|)
  if diffs.length = 0 then none else some (diffs.sum / (diffs.length : ℚ))

/-- `make_sensitivity_analysis(measure, '*')` (worst_case.py 251-266), first members of the tuples, for `n`
distinct analysed elements. `none`: ZeroDivisionError (265) when there is an element and the total is 0. -/
def sensitivity (wc : List ℚ) (n : ℕ) : Option (List ℚ) := do
  let sens ← (List.range n).mapM (meanDiff wc)
  let total := sens.sum
  sens.mapM (fun s => if total = 0 then none else some (s / total * 100))

/-- `get_sensitivity_data('*', measure)` (quick_sensitivity_analysis.py 76-86). -/
def quickSensitivity (nominal : ℚ) (steps : List ℚ) : List ℚ :=
  let errs := steps.map (fun s => |s - nominal|)
  let total := errs.sum
  errs.map (fun e => if total ≠ 0 then e / total * 100 else 0)

end Model.Testbench
