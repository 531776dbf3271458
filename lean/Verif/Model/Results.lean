import Verif.Model.PyStr
/-
The results of a tolerance analysis: ToleranceDeviations.read_logfiles, add_log and clear_simulation_data, SimAnalysis.read_logfiles and read_logfile,
Montecarlo.analyse_measurement and WorstCaseAnalysis.get_min_max_measure_value
(spicelib/sim/tookit/{tolerance_deviations,sim_analysis,montecarlo,worst_case}.py).

Columns are values here: that sharing of list objects between logs does no harm is Model/LogMerge (C20). `simulation_results['log_data']` is, whenever it is
there, the object `self.log_data`, which only read_logfiles replaces: the model keeps whether it is there. What the log readers find in the files is an oracle.
-/
namespace Model.Results
open Model.PyStr

abbrev Str := List Char

/-- RuntimeError, ValueError (also from a reader), StopIteration, IndexError, TypeError, AttributeError, KeyError. -/
inductive Err
  | runtime | value | stop | index | type | attr | key
  deriving DecidableEq, Repr

/-- A value of a log: a whole number, an LTComplex, or anything else (a float, a text, a list). -/
inductive Val (X : Type)
  | int (n : Int)
  | cplx (x : X)
  | other (x : X)
  deriving DecidableEq, Repr

/-- Library: `round(val.real)` and `a < b` of Python on such values; none is an exception. -/
structure Py (X : Type) where
  round : X → Option Int
  less : Val X → Val X → Option Bool

/-- A dictionary of columns, in order of insertion. -/
abbrev Cols (X : Type) := List (Str × List (Val X))

/-- LogfileData: stepset, dataset, step_count. -/
structure Log (X : Type) where
  stepset : Cols X
  dataset : Cols X
  stepCount : Nat
  deriving DecidableEq

variable {X : Type}

/-- 194-203 of sim_analysis.py: a new column, or more values in an old one. -/
def addCol (d : Cols X) (c : Str × List (Val X)) : Cols X :=
  match d with
  | [] => [c]
  | e :: r => if e.1 = c.1 then (e.1, e.2 ++ c.2) :: r else e :: addCol r c

/-- add_log_data (sim_analysis.py 189-204). -/
def addLogData (d : Log X) : Option (Log X) → Log X
  | none => d
  | some l => { stepset := l.stepset.foldl addCol d.stepset, dataset := l.dataset.foldl addCol d.dataset, stepCount := d.stepCount + l.stepCount }

/-- What a finished run left (run_task.py): its return code and what the reader of its simulator finds in its log file (sim_analysis.py 170-187): an exception,
None (no file, unknown encoding) or the data. -/
abbrev Files (X : Type) := Nat → Except Err (Option (Log X))

/-- The attributes. -/
structure St (X : Type) where
  sims : List (Option Nat)   -- self.simulations
  data : Log X               -- self.log_data
  cached : Bool              -- 'log_data' in self.simulation_results
  analysis : Bool            -- self.analysis_executed
  testbench : Bool           -- self.testbench_executed

/-- SimAnalysis.read_logfiles (sim_analysis.py 206-216), the loop. -/
def readAll (files : Files X) (d : Log X) : List (Option Nat) → Except Err (Log X)
  | [] => .ok d
  | none :: r => readAll files d r
  | some n :: r =>
    match files n with
    | .error e => .error e
    | .ok l => readAll files (addLogData d l) r

/-- `round(val.real)` -/
def roundReal (py : Py X) : Val X → Except Err (Val X)
  | .int n => .ok (.int n)
  | .cplx x => match py.round x with
    | some n => .ok (.int n)
    | none => .error .value
  | .other x => match py.round x with
    | some n => .ok (.int n)
    | none => .error .attr

/-- `[f(val) for val in l]` -/
def each (f : Val X → Except Err (Val X)) : List (Val X) → Except Err (List (Val X))
  | [] => .ok []
  | v :: r =>
    match f v with
    | .error e => .error e
    | .ok w => match each f r with
      | .error e => .error e
      | .ok ws => .ok (w :: ws)

/-- `list(range(a, a + n))` -/
def range (a : Int) (n : Nat) : List (Val X) := (List.range n).map (fun (i : Nat) => .int (a + (i : Int)))

def isComplex : Val X → Bool
  | .cplx _ => true
  | _ => false

/-- 238-242 and 266-270 of tolerance_deviations.py: the column that numbers the runs. -/
def runColumn (py : Py X) (col : List (Val X)) : Except Err (List (Val X)) :=
  match col with
  | [] => .ok []
  | v :: r => if isComplex v then each (roundReal py) (v :: r) else .ok (v :: r)

/-- 264-276: the steps of merged logs, for a log without steps. -/
def numberRuns (py : Py X) (d : Log X) : Except Err (Log X) :=
  if d.stepset.isEmpty then
    match d.dataset.lookup "runm".toList with
    | some (v :: r) =>
      match runColumn py (v :: r) with
      | .error e => .error e
      | .ok c => .ok { d with stepset := [("run".toList, c)], stepCount := 1 }
    | _ =>
      match d.dataset with
      | [] => .error .stop
      | (_, col) :: _ => .ok { d with stepset := [("run".toList, range 0 col.length)], stepCount := 1 }
  else .ok d

/-- ToleranceDeviations.read_logfiles (254-279). After an exception of a reader `self.log_data` is partly filled; the model puts the empty log there. -/
def readLogfiles (py : Py X) (files : Files X) (st : St X) : St X × Except Err (Log X) :=
  if st.analysis = false ∧ st.testbench = false then (st, .error .runtime)
  else if st.cached then (st, .ok st.data)
  else
    match readAll files ⟨[], [], 0⟩ st.sims with
    | .error e => ({ st with data := ⟨[], [], 0⟩ }, .error e)
    | .ok d =>
      match numberRuns py d with
      | .error e => ({ st with data := d }, .error e)
      | .ok d' => ({ st with data := d', cached := true }, .ok d')

/-- 245-249: the first number of new runs. -/
def nextRun (d : Log X) : Except Err Int :=
  if d.stepset.isEmpty then .ok 0
  else match d.stepset.lookup "run".toList with
    | none => .error .key
    | some l => match l.getLast? with
      | none => .error .index
      | some (.int n) => .ok (n + 1)
      | some _ => .error .type

/-- 236-249: the steps of one log. -/
def ownRuns (py : Py X) (d l : Log X) : Except Err (Log X) :=
  if l.stepset.isEmpty then
    match l.dataset.lookup "run".toList with
    | some (v :: r) =>
      match runColumn py (v :: r) with
      | .error e => .error e
      | .ok c => .ok { l with stepset := [("run".toList, c)], stepCount := 1 }
    | _ =>
      match l.dataset with
      | [] => .error .stop
      | (_, col) :: _ =>
        match nextRun d with
        | .error e => .error e
        | .ok a => .ok { l with stepset := [("run".toList, range a col.length)], stepCount := 1 }
  else .ok l

/-- add_log (229-252); `failed` is retcode ≠ 0. -/
def addLog (py : Py X) (files : Files X) (n : Nat) (failed : Bool) (st : St X) : St X × Except Err (Option (Log X)) :=
  if failed then (st, .ok none)
  else
    match files n with
    | .error e => (st, .error e)
    | .ok none => (st, .error .attr)
    | .ok (some l) =>
      match ownRuns py st.data l with
      | .error e => (st, .error e)
      | .ok l' => ({ st with data := addLogData st.data (some l') }, .ok (some l'))

/-- LogfileData.__getitem__ (logfile_data.py 169-181). -/
def column (d : Log X) (name : Str) : Except Err (List (Val X)) :=
  match d.stepset.lookup (name.map Char.toLower) with
  | some c => .ok c
  | none => match d.dataset.lookup (name.map Char.toLower) with
    | some c => .ok c
    | none => .error .index

/-- Montecarlo.analyse_measurement (montecarlo.py 225-241). -/
def analyseMeasurement (py : Py X) (files : Files X) (name : Str) (st : St X) : St X × Except Err (Option (List (Val X))) :=
  if st.analysis = false then (st, .ok none)
  else
    match readLogfiles py files st with
    | (st', .error e) => (st', .error e)
    | (st', .ok d) => (st', (column d name).map some)

/-- Python's min: the first of the smallest. -/
def pyMin (py : Py X) (cur : Val X) : List (Val X) → Except Err (Val X)
  | [] => .ok cur
  | v :: r =>
    match py.less v cur with
    | none => .error .type
    | some true => pyMin py v r
    | some false => pyMin py cur r

/-- Python's max: the first of the largest. -/
def pyMax (py : Py X) (cur : Val X) : List (Val X) → Except Err (Val X)
  | [] => .ok cur
  | v :: r =>
    match py.less cur v with
    | none => .error .type
    | some true => pyMax py v r
    | some false => pyMax py cur r

/-- `min(l), max(l)` -/
def minMax (py : Py X) : List (Val X) → Except Err (Val X × Val X)
  | [] => .error .value
  | v :: r =>
    match pyMin py v r with
    | .error e => .error e
    | .ok a => match pyMax py v r with
      | .error e => .error e
      | .ok b => .ok (a, b)

/-- WorstCaseAnalysis.get_min_max_measure_value (worst_case.py 198-214). -/
def getMinMax (py : Py X) (files : Files X) (name : Str) (st : St X) : St X × Except Err (Option (Val X × Val X)) :=
  if st.analysis = false then (st, .ok none)
  else
    match readLogfiles py files st with
    | (st', .error e) => (st', .error e)
    | (st', .ok d) =>
      match column d name with
      | .error e => (st', .error e)
      | .ok col => if col.length ≠ st.sims.length then (st', .ok none) else (st', (minMax py col).map some)

/-- What happens to an analysis: a new run_analysis or run_testbench begins (clear_simulation_data, tolerance_deviations.py 95-99); a run is started
(sim_analysis.py 95-97; run_testbench also keeps a run that was not started, 217); run_analysis ends (montecarlo.py 223, worst_case.py 196); run_testbench ends
(222-227: with a callback it returns before the flag is set); the results are read. -/
inductive Op (X : Type)
  | clear
  | run (n : Option Nat)
  | endAnalysis
  | endTestbench (callback : Bool)
  | read (files : Files X)

def step (py : Py X) (st : St X) : Op X → St X
  | .clear => { st with sims := [], cached := false, analysis := false }
  | .run n => { st with sims := st.sims ++ [n] }
  | .endAnalysis => { st with analysis := true }
  | .endTestbench callback => if callback then st else { st with testbench := true }
  | .read files => (readLogfiles py files st).1

def exec (py : Py X) (st : St X) (ops : List (Op X)) : St X := ops.foldl (step py) st

/-- __init__ (tolerance_deviations.py 73-84, sim_analysis.py 49-59). -/
def init : St X := { sims := [], data := ⟨[], [], 0⟩, cached := false, analysis := false, testbench := false }

end Model.Results
