import Verif.Model.Session
import Verif.Model.SweepFiles
/-
A program that edits a netlist and runs it, and the netlist files it leaves: the operations of Model.Session, reset_netlist (spicelib/editor/spice_editor.py 84-103, spice_file.py 161-198: the file
the editor was opened on is read again), and run (spicelib/sim/sim_runner.py 443-465: the netlist is saved under a name with the new run number). Then the programs that
WorstCaseAnalysis.run_analysis (spicelib/sim/tookit/worst_case.py 101-188), QuickSensitivityAnalysis.run_analysis (quick_sensitivity_analysis.py 95-177) and Montecarlo.run_analysis
(montecarlo.py 183-219) execute on the editor once the elements under analysis are known.

Simplifications: those of Model.Session; values are the texts that are written for them (the numbers themselves and how they are collected: Model.Analysis and Model.MonteCarlo); `run_filename` is None; the
simulations do not write to the netlist files; the number of elements is below 12 (with more the worst case returns before it does anything, Model.Analysis).
-/
namespace Model.RunSnap
open Model.EditSave Model.CompLine
open Model.Params (PV)
open Model.Stepper (What)

abbrev Str := List Char

inductive Act where
  | op (o : Model.Session.Op)
  | run
  | reset

/-- The elements of the netlist, the text of the file the editor was opened on, the run number of the runner, and the files written for runs. -/
structure St where
  els : List El
  file : Str
  runno : Nat
  folder : List (Str × Str)

variable (w : WordClass) (numeric : Str → Bool) (shown : PV → Str) (included : Str → Option Str) (circuit : Str)

/-- One action. `none` is an exception. Saving and opening again (`reopen`) goes on with an editor of the saved file. -/
def act (s : St) : Act → Option St
  | .op (.edit .reopen) => (save w numeric shown included s.els).bind (fun text =>
      (openText w numeric shown text).map (fun els => { s with els := els, file := text }))
  | .op o => (Model.Session.step w numeric shown included s.els o).map (fun els => { s with els := els })
  | .run => (save w numeric shown included s.els).map (fun text =>
      { s with runno := s.runno + 1, folder := s.folder ++ [(Model.Runner.runFileName circuit (s.runno + 1), text)] })
  | .reset => (openText w numeric shown s.file).map (fun els => { s with els := els })

def acts (s : St) : List Act → Option St
  | [] => some s
  | a :: as => (act w numeric shown included circuit s a).bind (fun s => acts s as)

/-! ### The programs of the analyses -/

/-- An element under analysis: how it is set (`'component'` or `'parameter'`), its name, and the texts of its two values: `on` when its bit is set, `off` when it is not (worst_case.py 167-173,
quick_sensitivity_analysis.py 155-161). -/
structure Elem where
  kind : What
  name : Str
  on : Str
  off : Str
  deriving DecidableEq

/-- worst_case.py 174-177, quick_sensitivity_analysis.py 162-165, montecarlo.py 204, 210. -/
def setOp (k : What) (name v : Str) : Model.Session.Op :=
  match k with
  | .param => .edit (.param name v)
  | _ => .edit (.set name v)

/-- The `while bit_updated != 0` loop (worst_case.py 163-181, quick_sensitivity_analysis.py 149-170) with at most `fuel` turns. `none` is the IndexError. -/
def flipsF (els : List Elem) (setting : Nat) : (fuel bits idx : Nat) → Option (List Act)
  | 0, _, _ => some []
  | fuel + 1, bits, idx =>
    if bits = 0 then some []
    else
      if bits &&& 1 = 1 then
        (els[idx]?).bind (fun e => (flipsF els setting fuel (bits >>> 1) (idx + 1)).map (fun as => .op (setOp e.kind e.name (if setting &&& (1 <<< idx) ≠ 0 then e.on else e.off)) :: as))
      else flipsF els setting fuel (bits >>> 1) (idx + 1)

/-- `bits` turns are enough: every turn halves `bits`. -/
def flips (els : List Elem) (setting bits : Nat) : Option (List Act) := flipsF els setting bits bits 0

/-- The name `'run'`. -/
def runName : Str := "run".toList

/-- The `for run in range(...)` loop (worst_case.py 159-188, quick_sensitivity_analysis.py 145-176): `last` is the setting of the run before, `settings` those of the runs from number `n` on.
`text` is what is written for a run number. -/
def passes (els : List Elem) (text : Int → Str) : (last : Nat) → (settings : List Nat) → (n : Nat) → Option (List Act)
  | _, [], _ => some []
  | last, s :: ss, n =>
    match flips els s (s ^^^ last), passes els text s ss (n + 1) with
    | some fl, some rest => some (fl ++ .op (.edit (.param runName (text n))) :: .run :: rest)
    | _, _ => none

/-- `".meas runm PARAM {run}"`. -/
def meas : Str := ".meas runm PARAM {run}".toList

/-- worst_case.py 148-156, quick_sensitivity_analysis.py 135-144: the recorded instructions `setup` are played on the netlist of the file, then the nominal run. -/
def nominal (text : Int → Str) (setup : List Model.Session.Op) : List Act :=
  .reset :: setup.map .op ++ [.op (.edit (.param runName (text (-1)))), .op (.instruct meas), .run]

/-- worst_case.py 148-188; `run_count = 2**n`, `last_run_number = run_count - 1`. -/
def worstCase (els : List Elem) (text : Int → Str) (setup : List Model.Session.Op) : Option (List Act) :=
  (passes els text (2 ^ els.length - 1) (List.range (2 ^ els.length)) 0).map (nominal text setup ++ ·)

/-- quick_sensitivity_analysis.py 135-176. -/
def quickSens (els : List Elem) (text : Int → Str) (setup : List Model.Session.Op) : Option (List Act) :=
  (passes els text 0 ((List.range els.length).map (2 ^ ·)) 0).map (nominal text setup ++ ·)

/-- One pass of the loop of montecarlo.py 195-215: `draws` are the elements whose value changes, with the new value. -/
def drawn (setup : List Model.Session.Op) (draws : List (What × Str × Str)) : List Act :=
  .reset :: setup.map .op ++ draws.map (fun d => .op (setOp d.1 d.2.1 d.2.2)) ++ [.run]

/-- montecarlo.py 195-215, with what is drawn in each of the runs. -/
def monteCarlo (setup : List Model.Session.Op) (runs : List (List (What × Str × Str))) : List Act := runs.flatMap (drawn setup)

end Model.RunSnap
