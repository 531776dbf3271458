import Verif.Model.Analysis
import Verif.Model.PyStr
import Verif.Model.Testbench
/-
Monte-Carlo analysis: spicelib/sim/tookit/montecarlo.py 61-154 (prepare_testbench), 156-181 (_get_sim_value), 183-223 (run_analysis);
tolerance_deviations.py 133-149, 157-165, 171-227 (run_testbench); sim_analysis.py 109-152.

Simplifications: numbers are exact rationals, and a number that is written (`%g`, `%s`) is read back as the same number, except that the
text of a tolerance (`'%g' % tolerance`) is kept, because 76 cuts it; the editor is a table of values and a list of instructions, where
`remove_instruction` removes the first one that is equal; `runner.run` takes a snapshot; an exception is `none`. A random number
is a parameter: `u` between 0 and 1 for `uniform(a, b) = a + (b-a) * u` and `g` for `gauss(m, s) = m + s * g`.
-/
namespace Model.MonteCarlo
open Model.PyStr
open Model.Analysis (Name Kind DevType allowed runName)
abbrev Str := List Char

inductive Dist | uniform | normal | other
  deriving DecidableEq

/-- `ComponentDeviation` (tolerance_deviations.py 38-44); `tolText` is `'%g' % tolerance`. -/
structure Dev where
  lo : ℚ
  hi : ℚ
  typ : DevType
  dist : Dist
  tolText : Str
  deriving DecidableEq

/-- `ComponentDeviation.none` (54-56) -/
def Dev.no : Dev := ⟨0, 0, .none, .uniform, ['0']⟩

/-- A value of the netlist: a number, another text, or one of the formulas `{utol(nom,tol)}`, `{ntol(nom,tol)}`, `{urng(nom,mean,df2)}`
and `{nrng(nom,mean,df6)}` (montecarlo.py 77-90, 99-111). -/
inductive Val where
  | num (q : ℚ)
  | text (s : Str)
  | utol (nom : Val) (tol : Str)
  | ntol (nom : Val) (tol : Str)
  | urng (nom : Val) (mean df2 : ℚ)
  | nrng (nom : Val) (mean df6 : ℚ)
  deriving DecidableEq

/-- The values held by the editor -/
abbrev Net := Kind → Name → Option Val

def Net.put (n : Net) (k : Kind) (ref : Name) (v : Val) : Net := fun k' r' => if k' = k ∧ r' = ref then some v else n k' r'

/-- set_component_value (an unknown component raises) and set_parameter -/
def Net.set (n : Net) (k : Kind) (ref : Name) (v : Val) : Option Net :=
  match k with
  | .component => if (n .component ref).isSome then some (n.put .component ref v) else none
  | .parameter => some (n.put .parameter ref v)

/-- A recorded command (sim_analysis.py 116-132); removals are left out. -/
inductive Cmd where
  | setComponent (ref : Name) (v : Val)
  | setParameter (ref : Name) (v : Val)
  | instruction (s : Str)

/-- The editor: values and added instructions. -/
structure Ed where
  net : Net
  instr : List Str

def applyCmd (e : Ed) : Cmd → Option Ed
  | .setComponent ref v => (e.net.set .component ref v).map (fun n => { e with net := n })
  | .setParameter ref v => (e.net.set .parameter ref v).map (fun n => { e with net := n })
  | .instruction s => some { e with instr := e.instr ++ [s] }

/-- The analysis object; `launched` are the netlists given to the simulator, in order. -/
structure St where
  comps : List Name
  file : Net
  ed : Ed
  received : List Cmd
  added : Bool
  prepared : Bool
  lastRun : ℕ
  deviceDev : List (Name × Dev)
  paramDev : List (Name × Dev)
  defaultTol : List (Char × Dev)
  launched : List Ed

/-- `_reset_netlist` of SimAnalysis (sim_analysis.py 109-114) -/
def St.reset (a : St) : St := { a with ed := ⟨a.file, []⟩, added := false }

/-- `play_instructions` (sim_analysis.py 134-152) -/
def St.play (a : St) : Option St :=
  if a.added then some a
  else (a.received.foldlM applyCmd a.ed).map (fun e => { a with ed := e, added := true })

/-- `get_component_value_deviation_type` (tolerance_deviations.py 133-149) -/
def St.valueDev (a : St) (ref : Name) : Option (Val × Dev) :=
  match ref.head? with
  | none => none
  | some c =>
    if c ∈ allowed then
      match a.ed.net .component ref with
      | none => none
      | some (.num q) =>
        match a.deviceDev.lookup ref with
        | some d => some (.num q, d)
        | none => match a.defaultTol.lookup c with
          | some d => some (.num q, d)
          | none => some (.num q, Dev.no)
      | some v => some (v, Dev.no)
    else none

/-- `get_components('*')` (tolerance_deviations.py 128-130) -/
def St.candidates (a : St) : List Name := a.comps.filter (fun r => (r.head?.map (fun c => decide (c ∈ allowed))).getD false)

/-- `('%g' % dev.tolerance).rstrip('0').rstrip('.')` (montecarlo.py 76) -/
def tolArg (d : Dev) : Str := rstripChar '.' (rstripChar '0' d.tolText)

/-- The functions used so far: utol, ntol, urng, nrng (montecarlo.py 67-70). -/
structure Used where
  utol : Bool
  ntol : Bool
  urng : Bool
  nrng : Bool

/-- montecarlo.py 74-90: the formula of a component, and the functions noted as used; 88-90 notes none. -/
def compFormula (v : Val) (d : Dev) (u : Used) : Val × Used :=
  match d.typ, d.dist with
  | .tolerance, .uniform => (.utol v (tolArg d), { u with utol := true })
  | .tolerance, .normal => (.ntol v (tolArg d), { u with ntol := true })
  | .minmax, .uniform => (.urng v ((d.hi + d.lo) / 2) ((d.hi - d.lo) / 2), { u with urng := true })
  | .minmax, .normal => (.nrng v ((d.hi + d.lo) / 2) ((d.hi - d.lo) / 6), u)
  | _, _ => (v, u)

/-- montecarlo.py 72-94: the loop over the components. What is set is only recorded (sim_analysis.py 116-117). -/
def prepComps (a : St) : List Name → List Cmd × Used → Option (List Cmd × Used)
  | [], acc => some acc
  | ref :: l, acc => match a.valueDev ref with
    | none => none
    | some (v, d) =>
      let r := compFormula v d acc.2
      prepComps a l (if r.1 = v then acc.1 else acc.1 ++ [.setComponent ref r.1], r.2)

/-- montecarlo.py 97-114: the formula of a parameter; `none`: the deviation is of neither type, so nothing is set. A normal tolerance of a
text raises (`%g`). -/
def paramFormula (v : Val) (d : Dev) (u : Used) : Option (Option Val × Used) :=
  match d.typ, d.dist with
  | .tolerance, .uniform => some (some (.utol v d.tolText), { u with utol := true })
  | .tolerance, .normal => match v with
    | .num _ => some (some (.ntol v d.tolText), { u with ntol := true })
    | _ => none
  | .minmax, .uniform => some (some (.urng v ((d.hi + d.lo) / 2) ((d.hi - d.lo) / 2)), { u with urng := true })
  | .minmax, .normal => some (some (.nrng v ((d.hi + d.lo) / 2) ((d.hi - d.lo) / 6)), { u with nrng := true })
  | .none, _ => some (none, u)
  | _, .other => some (some v, u)

/-- montecarlo.py 96-116: the loop over the parameters, which are set in the editor. -/
def prepParams : List (Name × Dev) → Net × Used → Option (Net × Used)
  | [], acc => some acc
  | (p, d) :: l, acc => match acc.1 .parameter p with
    | none => none
    | some v => match paramFormula v d acc.2 with
      | none => none
      | some (none, u) => prepParams l (acc.1, u)
      | some (some w, u) => prepParams l (acc.1.put .parameter p w, u)

inductive Simulator | ltspice | qspice
  deriving DecidableEq

/-- The instruction with the functions (montecarlo.py 119-129, 136-146). -/
def funcLine : Simulator → Fin 4 → Str
  | .ltspice, 0 => ".func utol(nom,tol) if(run<0, nom, mc(nom,tol))".toList
  | .ltspice, 1 => ".func ntol(nom,tol) if(run<0, nom, nom*(1+gauss(tol/3)))".toList
  | .ltspice, 2 => ".func urng(nom,mean,df2) if(run<0, nom, mean+flat(df2))".toList
  | .ltspice, 3 => ".func nrng(nom,mean,df6) if(run<0, nom, mean*(1+gauss(df6)))".toList
  | .qspice, 0 => ".func utol(nom,tol) {if(run<0, nom, nom*(1+tol*(2*random()-1)))}".toList
  | .qspice, 1 => ".func ntol(nom,tol) {if(run<0, nom, nom*(1+gauss(tol/3)))}".toList
  | .qspice, 2 => ".func urng(nom,mean,df2) if(run<0, nom, mean+(df2*(2*random()-1))".toList
  | .qspice, 3 => ".func nrng(nom,mean,df6) if(run<0, nom, mean*(1+gauss(df6)))".toList

/-- montecarlo.py 118-146 -/
def funcLines (s : Simulator) (u : Used) : List Str :=
  (if u.utol then [funcLine s 0] else []) ++ (if u.ntol then [funcLine s 1] else []) ++
  (if u.urng then [funcLine s 2] else []) ++ (if u.nrng then [funcLine s 3] else [])

/-- `".step param run %d %d 1"` -/
def stepLine (lo hi : ℤ) : Str := ".step param run ".toList ++ showInt lo ++ ' ' :: (showInt hi ++ " 1".toList)

/-- montecarlo.py 61-154; `numRuns` is the keyword argument. -/
def prepare (s : Simulator) (numRuns : Option ℕ) (a : St) : Option St :=
  match prepComps a a.candidates ([], ⟨false, false, false, false⟩) with
  | none => none
  | some (cmds, u) => match prepParams a.paramDev (a.ed.net, u) with
    | none => none
    | some (net, u) =>
      let last := numRuns.getD (if a.lastRun ≠ 0 then a.lastRun else 1000)
      some { a with
        received := a.received ++ cmds,
        ed := ⟨net.put .parameter runName (.num (-1)), a.ed.instr ++ funcLines s u ++ [stepLine (-1) last]⟩,
        lastRun := last, prepared := true }

/-- One turn of tolerance_deviations.py 211-222: the step of the batch is added, the netlist simulated, the step removed. -/
def launchBatch (a : St) (b : ℤ × ℤ) : St :=
  let e := { a.ed with instr := a.ed.instr ++ [stepLine b.1 b.2] }
  { a with launched := a.launched ++ [e], ed := { a.ed with instr := e.instr.erase (stepLine b.1 b.2) } }

/-- tolerance_deviations.py 193-223 -/
def runTestbench (s : Simulator) (runsPerSim : ℤ) (a : St) : Option St :=
  let start := if a.prepared then a.play else match a.reset.play with
    | none => none
    | some a => prepare s none a
  match start with
  | none => none
  | some a =>
    let a := { a with ed := { a.ed with instr := a.ed.instr.erase (stepLine (-1) a.lastRun) }, launched := [] }
    some ((Model.Testbench.batches a.lastRun runsPerSim).foldl launchBatch a)

/-- `_get_sim_value` (montecarlo.py 157-181) with a random `u` and `g`; arithmetic on a text raises. -/
def simValue (v : Val) (d : Dev) (u g : ℚ) : Option Val :=
  match d.typ, d.dist with
  | .tolerance, .uniform => match v with
    | .num q => some (.num (q * (1 - d.lo) + (q * (1 + d.lo) - q * (1 - d.lo)) * u))
    | _ => none
  | .tolerance, .normal => match v with
    | .num q => some (.num (q * (1 + (0 + d.lo / 3 * g))))
    | _ => none
  | .minmax, .uniform => some (.num (d.lo + (d.hi - d.lo) * u))
  | .minmax, .normal => some (.num ((d.hi + d.lo) / 2 + (d.hi - d.lo) / 6 * g))
  | _, _ => some v

/-- montecarlo.py 201-205: the components of one run; `r` gives the random numbers. -/
def varyComps (r : Name → ℚ × ℚ) : List Name → St → Option St
  | [], a => some a
  | ref :: l, a => match a.valueDev ref with
    | none => none
    | some (v, d) => match simValue v d (r ref).1 (r ref).2 with
      | none => none
      | some w =>
        if w = v then varyComps r l a
        else match a.ed.net.set .component ref w with
          | none => none
          | some n => varyComps r l { a with ed := { a.ed with net := n } }

/-- montecarlo.py 207-211: the parameters of one run. -/
def varyParams (r : Name → ℚ × ℚ) : List (Name × Dev) → Net → Option Net
  | [], n => some n
  | (p, d) :: l, n => match n .parameter p with
    | none => none
    | some v => match simValue v d (r p).1 (r p).2 with
      | none => none
      | some w => varyParams r l (if w = v then n else n.put .parameter p w)

/-- montecarlo.py 197-215: one run. -/
def oneRun (rc rp : Name → ℚ × ℚ) (a : St) : Option St :=
  match ({ a.reset with prepared := false } : St).play with
  | none => none
  | some a => match varyComps rc a.candidates a with
    | none => none
    | some a => match varyParams rp a.paramDev a.ed.net with
      | none => none
      | some n =>
        let e := { a.ed with net := n }
        some { a with ed := e, launched := a.launched ++ [e] }

/-- montecarlo.py 183-215 without callbacks; `rnd` gives the random numbers of each run. -/
def runAnalysis (rnd : List ((Name → ℚ × ℚ) × (Name → ℚ × ℚ))) (a : St) : Option St :=
  rnd.foldlM (fun a r => oneRun r.1 r.2 a) { a with launched := [] }

end Model.MonteCarlo
