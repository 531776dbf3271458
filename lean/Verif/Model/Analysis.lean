import Mathlib.Data.Rat.Defs
import Mathlib.Algebra.Order.Ring.Unbundled.Rat
import Mathlib.Algebra.Field.Rat
/-
Model of the analysis toolkit of /repo/spicelib/sim/tookit: sim_analysis.py (recording and replay of setup
commands), tolerance_deviations.py (deviation bookkeeping), worst_case.py `run_analysis` and
quick_sensitivity_analysis.py `run_analysis`.

Simplifications: numbers are exact rationals (no float rounding, and the text that the editor writes for a
number is read back as the same number; rounding of that text is the subject of property C39).  The editor is
seen as a table of component values and parameters; a value which is not a number is kept as text.  `runner.run`
is seen as taking a snapshot of the table (the netlist file that is written for that simulation).  An exception
is `none`.
-/
namespace Model.Analysis

/-- Names of components and parameters. -/
abbrev Name := List Char

/-- The parameter `'run'` (worst_case.py 150, 183). -/
def runName : Name := ['r', 'u', 'n']

/-- The third member of the tuples of worst_case.py 119 and 128: `'component'` or `'parameter'`. -/
inductive Kind | component | parameter
  deriving DecidableEq

/-- A value of the netlist: a number (what `to_float(value, accept_invalid=False)` accepts,
tolerance_deviations.py 141) or any other text (142-143, and 137-138 for the empty one). -/
inductive Val | num (q : ℚ) | text (s : Name)
  deriving DecidableEq

/-- `DeviationType` (tolerance_deviations.py 31-35). -/
inductive DevType | tolerance | minmax | none
  deriving DecidableEq

/-- `ComponentDeviation` (tolerance_deviations.py 38-44); the distribution is only used by the Monte-Carlo. -/
structure Dev where
  minVal : ℚ
  maxVal : ℚ
  typ : DevType
  deriving DecidableEq

/-- `ComponentDeviation.from_tolerance` (46-48). -/
def Dev.fromTolerance (tol : ℚ) : Dev := ⟨tol, -tol, .tolerance⟩
/-- `ComponentDeviation.from_min_max` (50-52). -/
def Dev.fromMinMax (lo hi : ℚ) : Dev := ⟨lo, hi, .minmax⟩
/-- `ComponentDeviation.none` (54-56). -/
def Dev.no : Dev := ⟨0, 0, .none⟩
/-- `ComponentDeviation.tolerance` (58-60). -/
def Dev.tolerance (d : Dev) : ℚ := d.minVal
/-- `ComponentDeviation.is_not_valid` (66-67). -/
def Dev.isNotValid (d : Dev) : Bool := decide (d.minVal = d.maxVal) || decide (d.typ = .none)

/-- The values held by the editor. `none`: there is no such component / parameter. -/
abbrev Net := Kind → Name → Option Val

/-- The assignment of one entry of the table. -/
def Net.put (n : Net) (k : Kind) (ref : Name) (v : Val) : Net :=
  fun k' r' => if k' = k ∧ r' = ref then some v else n k' r'

/-- `editor.set_component_value` (raises ComponentNotFoundError for an unknown component) and
`editor.set_parameter` (adds the parameter if it does not exist). -/
def Net.set (n : Net) (k : Kind) (ref : Name) (v : Val) : Option Net :=
  match k with
  | .component => if (n .component ref).isSome then some (n.put .component ref v) else none
  | .parameter => some (n.put .parameter ref v)

/-- A recorded setup command (sim_analysis.py 116-132); only the two that change values are modelled here
(the replay of all commands is modelled in `Model.Replay`). -/
inductive Cmd
  | setComponent (ref : Name) (v : Val)
  | setParameter (ref : Name) (v : Val)

/-- One iteration of the loop of `play_instructions` (sim_analysis.py 137-151). -/
def applyCmd (n : Net) : Cmd → Option Net
  | .setComponent ref v => n.set .component ref v
  | .setParameter ref v => n.set .parameter ref v

/-- `devices_with_deviation_allowed` (tolerance_deviations.py 72). -/
def allowed : List Char := ['R', 'C', 'L', 'V', 'I']

/-- The state of an analysis object (sim_analysis.py 48-59, tolerance_deviations.py 74-84). `comps` are the
references of the netlist, in order; `file` is the netlist on disk, to which `editor.reset_netlist()` goes back;
`launched` are the netlists given to the simulator, in order. -/
structure St where
  comps : List Name
  file : Net
  net : Net
  received : List Cmd
  added : Bool
  deviceDev : List (Name × Dev)
  paramDev : List (Name × Dev)
  defaultTol : List (Char × Dev)
  launched : List Net

/-- `_reset_netlist` (sim_analysis.py 109-114, tolerance_deviations.py 163-165). -/
def St.reset (a : St) : St := { a with net := a.file, added := false }

/-- `play_instructions` (sim_analysis.py 134-152). -/
def St.play (a : St) : Option St :=
  if a.added then some a
  else do
    let n ← a.received.foldlM applyCmd a.net
    some { a with net := n, added := true }

/-- `self.run(...)` (sim_analysis.py 76-98): the netlist of this moment is simulated. -/
def St.launch (a : St) : St := { a with launched := a.launched ++ [a.net] }

/-- `get_component_value_deviation_type` (tolerance_deviations.py 133-149). -/
def St.valueDev (a : St) (ref : Name) : Option (Val × Dev) :=
  match ref.head? with
  | none => none                                        -- ref[0] IndexError
  | some c =>
    if c ∈ allowed then                                  -- 134-135
      match a.net .component ref with                    -- 136
      | none => none
      | some (.text s) => some (.text s, Dev.no)         -- 137-138, 142-143
      | some (.num q) =>
        match a.deviceDev.lookup ref with                -- 144-145
        | some d => some (.num q, d)
        | none =>
          match a.defaultTol.lookup c with               -- 146-149
          | some d => some (.num q, d)
          | none => some (.num q, Dev.no)
    else none

/-- One tuple of the dictionary `worst_case_elements` (worst_case.py 119, 128). -/
structure Elem where
  val : Val
  dev : Dev
  kind : Kind
  deriving DecidableEq

/-- `elements_analysed` and the dictionary `worst_case_elements`, newest entry first: `lookup` finds the latest
assignment of a key, as a Python dictionary does. -/
structure Gath where
  els : List Name
  dict : List (Name × Elem)

/-- `check_and_add_component` (worst_case.py 115-120; identical in quick_sensitivity_analysis.py 108-113 and
fast_worst_case.py 100-105). -/
def addComp (a : St) (g : Gath) (ref : Name) : Option Gath := do
  let (v, d) ← a.valueDev ref
  if d.isNotValid then some g
  else some ⟨g.els ++ [ref], (ref, ⟨v, d, .component⟩) :: g.dict⟩

/-- The body of the loop of worst_case.py 125-129. `get_parameter` raises for a missing parameter. -/
def addParam (a : St) (g : Gath) (p : Name × Dev) : Option Gath := do
  let v ← a.net .parameter p.1
  if p.2.typ = .tolerance ∨ p.2.typ = .minmax then
    some ⟨g.els ++ [p.1], (p.1, ⟨v, p.2, .parameter⟩) :: g.dict⟩
  else some g

/-- Body of the inner loop of worst_case.py 131-134. -/
def addDefault (a : St) (g : Gath) (ref : Name) : Option Gath :=
  if ref ∈ a.deviceDev.map Prod.fst then some g else addComp a g ref

/-- The components looked at by the loops of worst_case.py 131-132 (`get_components(prefix)` returns the
references that start with that letter, in netlist order, spice_subcircuit.py 734-759). -/
def defaultRefs (a : St) : List Name :=
  a.defaultTol.flatMap (fun p => a.comps.filter (fun r => decide (r.head? = some p.1)))

/-- The collection of the elements (worst_case.py 111-134, the same lines in quick_sensitivity_analysis.py
102-127 and fast_worst_case.py 96-168). -/
def gather (a : St) : Option Gath := do
  let g1 ← (a.deviceDev.map Prod.fst).foldlM (addComp a) ⟨[], []⟩
  let g2 ← a.paramDev.foldlM (addParam a) g1
  (defaultRefs a).foldlM (addDefault a) g2

/-- New value of an element in worst_case.py 167-173. Multiplying a text raises. -/
def wcValue (e : Elem) (bit : Bool) : Option Val :=
  match e.dev.typ with
  | .tolerance =>
    match e.val with
    | .num q => some (.num (if bit then q * (1 - e.dev.tolerance) else q * (1 + e.dev.tolerance)))
    | .text _ => none
  | .minmax => some (.num (if bit then e.dev.minVal else e.dev.maxVal))
  | .none => some e.val

/-- New value of an element in quick_sensitivity_analysis.py 155-161. -/
def qsValue (e : Elem) (bit : Bool) : Option Val :=
  match e.dev.typ with
  | .tolerance =>
    if bit then
      match e.val with
      | .num q => some (.num (q * (1 + e.dev.tolerance)))
      | .text _ => none
    else some e.val
  | .minmax => some (if bit then .num e.dev.minVal else e.val)
  | .none => some e.val

/-- Body of the `if` of worst_case.py 164-179 (quick_sensitivity_analysis.py 152-168). -/
def setElem (newVal : Elem → Bool → Option Val) (g : Gath) (setting idx : ℕ) (n : Net) : Option Net := do
  let ref ← g.els[idx]?                                  -- IndexError
  let e ← g.dict.lookup ref                              -- KeyError
  let v ← newVal e (setting.testBit idx)                 -- setting & (1 << bit_index)
  n.set e.kind ref v

/-- The `while bit_updated != 0` loop (worst_case.py 163-181, quick_sensitivity_analysis.py 151-170), with at
most `fuel` turns; `bits` turns always suffice since each one halves `bits` (see `updateBits`). -/
def updateBitsF (newVal : Elem → Bool → Option Val) (g : Gath) (setting : ℕ) :
    (fuel bits idx : ℕ) → Net → Option Net
  | 0, _, _, n => some n
  | fuel + 1, bits, idx, n =>
    if bits = 0 then some n
    else do
      let n' ← if bits % 2 = 1 then setElem newVal g setting idx n else some n
      updateBitsF newVal g setting fuel (bits / 2) (idx + 1) n'

/-- The loop run to its end. -/
def updateBits (newVal : Elem → Bool → Option Val) (g : Gath) (setting : ℕ) (bits idx : ℕ) (n : Net) :
    Option Net := updateBitsF newVal g setting bits bits idx n

/-- One turn of the `for run in range(...)` loops: worst_case.py 159-188 with `setting = run`, and
quick_sensitivity_analysis.py 145-176 with `setting = 2 ** run`. The pair is (state, last setting). -/
def turn (newVal : Elem → Bool → Option Val) (setting : ℕ → ℕ) (g : Gath) (p : St × ℕ) (run : ℕ) :
    Option (St × ℕ) := do
  let n ← updateBits newVal g (setting run) (setting run ^^^ p.2) 0 p.1.net
  let n ← n.set .parameter runName (.num run)
  some ({ p.1 with net := n }.launch, setting run)

/-- `WorstCaseAnalysis.run_analysis` (worst_case.py 101-196), without the callbacks. The returned list is
`elements_analysed`. -/
def worstCase (a : St) : Option (St × List Name) := do
  let a := { a with launched := [] }                     -- 111
  let g ← gather a
  if 2 ^ g.els.length ≥ 4096 then some (a, g.els)        -- 139-146
  else do
    let a ← a.reset.play                                 -- 148-149
    let n ← a.net.set .parameter runName (.num (-1)) -- 150
    let a := { a with net := n }.launch                   -- 153
    let p ← (List.range (2 ^ g.els.length)).foldlM (turn wcValue id g) (a, 2 ^ g.els.length - 1)
    some (p.1, g.els)

/-- `QuickSensitivityAnalysis.run_analysis` (quick_sensitivity_analysis.py 95-177). -/
def quickSens (a : St) : Option (St × List Name) := do
  let a := { a with launched := [] }
  let g ← gather a
  if g.els.length > 4096 then some (a, g.els)            -- 130-133
  else do
    let a ← a.reset.play
    let n ← a.net.set .parameter runName (.num (-1))
    let a := { a with net := n }.launch
    let p ← (List.range g.els.length).foldlM (turn qsValue (2 ^ ·) g) (a, 0)
    some (p.1, g.els)

end Model.Analysis
