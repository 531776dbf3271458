import Verif.Model.Stepper
import Verif.Model.EditSave
import Verif.Model.Runner
/-
SimStepper.run_all with a netlist and a folder: spicelib/sim/sim_stepping.py 197-233 (control flow: Model.Stepper), spicelib/editor/spice_subcircuit.py
589-648 (set_parameter), 651-709 (set_component_value, set_element_model: both set the value), spicelib/sim/sim_runner.py 443-465 (_run_file_name, _prepare_sim: the
netlist is saved under a name with the new run number).

Simplifications: values are the texts that are written for them; `filenamer` is None; the simulations do not write to the netlist files; what the runner does after the netlist was
saved is in Model.Runner.
-/
namespace Model.SweepFiles
open Model.EditSave Model.CompLine
open Model.Params (PV)
open Model.Regex (Str)

/-- The loop of run_all, the elements of the netlist, the run number of the runner, and the files written so far. -/
structure St where
  loop : Model.Stepper.St Str
  els : List El
  runno : Nat
  folder : List (Str × Str)

inductive Out where
  | stop
  | raised
  | next (s : St)

variable (w : WordClass) (numeric : Str → Bool) (shown : PV → Str) (included : Str → Option Str) (circuit : Str) (name : Nat → Str)

/-- sim_stepping.py 208-217: the value is set in the editor. -/
def setPass (d : Model.Stepper.Dim Str) (v : Str) (loop : Model.Stepper.St Str) (s : St) : Out :=
  match d.what with
  | .param => match setParameter (name d.elem) v s.els with
    | none => .raised
    | some els => .next { s with loop := loop, els := els }
  | _ => match setValue (name d.elem) v s.els with
    | none => .raised
    | some els => .next { s with loop := loop, els := els }

/-- sim_stepping.py 222-225, sim_runner.py 451-465: the netlist is saved under the name of the next run. -/
def runPass (loop : Model.Stepper.St Str) (s : St) : Out :=
  match save w numeric shown included s.els with
  | none => .raised
  | some text => .next { s with loop := loop, runno := s.runno + 1, folder := s.folder ++ [(Model.Runner.runFileName circuit (s.runno + 1), text)] }

/-- One pass: sim_stepping.py 199-233. -/
def pass (dims : List (Model.Stepper.Dim Str)) (task : Nat → Option Nat) (s : St) : Out :=
  match Model.Stepper.step dims task s.loop with
  | none => .stop
  | some loop => match dims[s.loop.iterNo.toNat]? with
    | some d => match d.vals[s.loop.pos (Model.Stepper.handle s.loop.iterNo.toNat d)]? with
      | none => .next { s with loop := loop }
      | some v => setPass name d v loop s
    | none => runPass w numeric shown included circuit loop s

inductive End where
  | unfinished
  | raised
  | done (s : St)

def runAll (dims : List (Model.Stepper.Dim Str)) (task : Nat → Option Nat) : Nat → St → End
  | 0, _ => .unfinished
  | n + 1, s => match pass w numeric shown included circuit name dims task s with
    | .stop => .done s
    | .raised => .raised
    | .next s => runAll dims task n s

/-- The contents of a file: what was written last. -/
def content (folder : List (Str × Str)) (f : Str) : Option Str := folder.reverse.lookup f

/-! ### Any program that sets values and runs the netlist -/

/-- set_component_value, set_element_model or set_parameter; runner.run(editor); saving the netlist elsewhere and going on with an editor that opens it. -/
inductive Act where
  | edit (op : Op)
  | run
  deriving DecidableEq, Repr

structure Session where
  els : List El
  runno : Nat
  folder : List (Str × Str)

/-- sim_runner.py 451-465 for `run`. `none` is an exception. -/
def act (s : Session) : Act → Option Session
  | .edit op => (step w numeric shown included s.els op).map (fun els => { s with els := els })
  | .run => (save w numeric shown included s.els).map (fun text =>
      { s with runno := s.runno + 1, folder := s.folder ++ [(Model.Runner.runFileName circuit (s.runno + 1), text)] })

def acts (s : Session) : List Act → Option Session
  | [] => some s
  | a :: as => (act w numeric shown included circuit s a).bind (fun s => acts s as)

end Model.SweepFiles
