import Verif.Model.Analysis
/-
Specification vocabulary for the tolerance analyses (C14, C17): what an element under analysis is, and what its
nominal / low / high values are.  Independent of how the code enumerates the runs.
-/
namespace Spec.Tolerance
open Model.Analysis

/-- The deviation that applies to a component: its own, else the one of its first letter. -/
def DeviationOf (a : St) (ref : Name) (d : Dev) : Prop :=
  (ref, d) ∈ a.deviceDev ∨
  ((∀ d', (ref, d') ∉ a.deviceDev) ∧ ∃ c, ref.head? = some c ∧ (c, d) ∈ a.defaultTol)

/-- `IsElement a nominal ref k v d`: in the netlist `nominal`, the component (or parameter) `ref` has the value
`v` and the deviation `d`, so that it takes part in the analysis. -/
def IsElement (a : St) (nominal : Net) (ref : Name) (k : Kind) (v : Val) (d : Dev) : Prop :=
  match k with
  | .component => ref ∈ a.comps ∧ nominal .component ref = some v ∧ (∃ q, v = .num q) ∧
      DeviationOf a ref d ∧ d.typ ≠ .none ∧ d.minVal ≠ d.maxVal
  | .parameter => (ref, d) ∈ a.paramDev ∧ nominal .parameter ref = some v

/-- Lower corner: `nominal·(1 − tol)` or the minimum. -/
def low (v : Val) (d : Dev) : Val :=
  match d.typ, v with
  | .tolerance, .num q => .num (q - q * d.minVal)
  | .minmax, _ => .num d.minVal
  | _, v => v

/-- Upper corner: `nominal·(1 + tol)` or the maximum. -/
def high (v : Val) (d : Dev) : Val :=
  match d.typ, v with
  | .tolerance, .num q => .num (q + q * d.minVal)
  | .minmax, _ => .num d.maxVal
  | _, v => v

/-- The object was set up through the public methods: dictionaries have unique keys, deviations are given to
existing components R, C, L, V, I (set_tolerance checks it, tolerance_deviations.py 106-110), the default table
has exactly the allowed letters, parameters have min/max deviations (151-152) and exist, no parameter has the
name of a component, and none is the reserved name `run`. -/
structure SetUp (a : St) : Prop where
  comps_nodup : a.comps.Nodup
  comps_exist : ∀ r ∈ a.comps, (a.net .component r).isSome
  dev_nodup : (a.deviceDev.map Prod.fst).Nodup
  dev_comps : ∀ p ∈ a.deviceDev, p.1 ∈ a.comps ∧ ∃ c ∈ allowed, p.1.head? = some c
  tol_keys : a.defaultTol.map Prod.fst = allowed
  par_nodup : (a.paramDev.map Prod.fst).Nodup
  par_exist : ∀ p ∈ a.paramDev, (a.net .parameter p.1).isSome
  par_minmax : ∀ p ∈ a.paramDev, p.2.typ = .minmax
  par_not_comp : ∀ p ∈ a.paramDev, p.1 ∉ a.comps
  par_not_run : ∀ p ∈ a.paramDev, p.1 ≠ runName

/-- `nominal` is the netlist of the file with the recorded set-up commands applied to it, and the analysed
values of the netlist in memory are those of `nominal` when the analysis starts. -/
structure InSync (a : St) (nominal : Net) : Prop where
  replay : a.received.foldlM applyCmd a.file = some nominal
  comp : ∀ r ∈ a.comps, a.net .component r = nominal .component r
  param : ∀ p ∈ a.paramDev, a.net .parameter p.1 = nominal .parameter p.1

end Spec.Tolerance
