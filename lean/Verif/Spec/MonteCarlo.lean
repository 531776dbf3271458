import Verif.Model.MonteCarlo
import Verif.Spec.SpiceExpr
/-! What a Monte-Carlo analysis promises: which elements vary, and over which values. -/
namespace Spec.MonteCarlo
open Model.MonteCarlo
open Model.Analysis (Name Kind DevType allowed runName)

/-- The deviation that applies to a component: its own, else the one of its first letter. -/
def DeviationOf (a : St) (ref : Name) (d : Dev) : Prop :=
  a.deviceDev.lookup ref = some d ∨
  (a.deviceDev.lookup ref = none ∧ ∃ c, ref.head? = some c ∧ a.defaultTol.lookup c = some d)

/-- In the netlist `n`, the element has the value `q` and the deviation `d`. -/
def Varies (a : St) (n : Net) (k : Kind) (ref : Name) (q : ℚ) (d : Dev) : Prop :=
  n k ref = some (.num q) ∧ d.typ ≠ .none ∧ d.dist ≠ .other ∧
  match k with
  | .component => ref ∈ a.comps ∧ (∃ c ∈ allowed, ref.head? = some c) ∧ DeviationOf a ref d
  | .parameter => (ref, d) ∈ a.paramDev

/-- Middle of the range. -/
def centre (q : ℚ) (d : Dev) : ℚ := match d.typ with
  | .tolerance => q
  | .minmax => (d.lo + d.hi) / 2
  | .none => q

/-- Half of the range. -/
def half (q : ℚ) (d : Dev) : ℚ := match d.typ with
  | .tolerance => q * d.lo
  | .minmax => (d.hi - d.lo) / 2
  | .none => 0

/-- The values of a run: anywhere in the range, or at any number of standard deviations, of which three make half of the range. -/
def Drawn (q : ℚ) (d : Dev) (v : ℚ) : Prop := match d.dist with
  | .uniform => ∃ t : ℚ, -1 ≤ t ∧ t ≤ 1 ∧ v = centre q d + half q d * t
  | .normal => ∃ g : ℚ, v = centre q d + half q d / 3 * g
  | .other => v = q

/-- The value for a random number `u` between 0 and 1, or a standard normal `g`. -/
def draw (q : ℚ) (d : Dev) (u g : ℚ) : ℚ := match d.dist with
  | .uniform => centre q d - half q d + 2 * half q d * u
  | .normal => centre q d + half q d / 3 * g
  | .other => q

/-- The values the simulator can give to a text of the netlist, at a run: a number is itself, a formula is a call of a function that the lines
define. `reads` is how it reads the number of a tolerance. -/
def Possible (reads : Str → Option ℚ) (lines : List Str) (run : ℚ) : Val → ℚ → Prop
  | .num q, v => v = q
  | .utol (.num q) t, v => ∃ x, reads t = some x ∧ SpiceExpr.Call lines run "utol".toList [q, x] v
  | .ntol (.num q) t, v => ∃ x, reads t = some x ∧ SpiceExpr.Call lines run "ntol".toList [q, x] v
  | .urng (.num q) m h, v => SpiceExpr.Call lines run "urng".toList [q, m, h] v
  | .nrng (.num q) m h, v => SpiceExpr.Call lines run "nrng".toList [q, m, h] v
  | _, _ => False

/-- The instructions among recorded commands. -/
def instrs (l : List Cmd) : List Str := l.filterMap (fun c : Cmd => match c with
  | .instruction s => some s
  | _ => none)

/-- The functions of the testbench. -/
def functions : List Str := ["utol".toList, "ntol".toList, "urng".toList, "nrng".toList]

/-- A testbench can be prepared: nothing was played yet, the tables are dictionaries, the commands of the user set neither `run` nor a
parameter with a deviation, and neither the netlist nor the user has a function or a step of the testbench. -/
structure Ready (a : St) : Prop where
  fresh : a.added = false
  comps : a.comps.Nodup
  params : (a.paramDev.map Prod.fst).Nodup
  not_run : runName ∉ a.paramDev.map Prod.fst
  commands : ∀ p v, Cmd.setParameter p v ∈ a.received → p ≠ runName ∧ p ∉ a.paramDev.map Prod.fst
  no_function : ∀ line ∈ a.ed.instr ++ instrs a.received, ∀ f ∈ functions, ∀ xs e, SpiceExpr.definition line ≠ some (f, xs, e)
  no_step : ∀ i j : ℤ, stepLine i j ∉ a.ed.instr ++ instrs a.received

/-- The deviations that the functions of the testbench can express. -/
def Supported (s : Simulator) (d : Dev) : Prop := d.typ = .tolerance ∨ (d.typ = .minmax ∧ d.dist = .uniform ∧ s = .ltspice)

/-- The text of the tolerance is the number, and has no final zero or point. -/
def Written (reads : Str → Option ℚ) (d : Dev) : Prop :=
  reads d.tolText = some d.lo ∧ ∀ x, d.tolText.getLast? = some x → x ≠ '0' ∧ x ≠ '.'

/-- What a testbench sets: components that vary, parameters with a deviation, and `run`. -/
def Touched (a : St) (n : Net) : Kind → Name → Prop
  | .component, r => ∃ q d, Varies a n .component r q d
  | .parameter, r => r = runName ∨ r ∈ a.paramDev.map Prod.fst

end Spec.MonteCarlo
