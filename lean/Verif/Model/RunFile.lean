import Verif.Model.RawMerge
import Verif.Model.Updates
import Verif.Model.PyStr
/-
Model of SimRunner.create_raw_file_with (spicelib/sim/sim_runner.py 803-845): one RAW file with traces of several runs. Uses the models
of add_traces_from_raw and _consolidate (Model/RawMerge) and of match_conditions (Model/Updates). The list of completed tasks is taken
when every task has ended (TaskIterator waits for the tasks, C06): the first task delivered by `next` is also the first one of the loop.
What `save` writes to disk is not repeated here; the result is the content of the file.
-/
namespace Model.RunFile
open Model.RawMerge (Err Source File addTraces consolidate)

abbrev Str := List Char

/-- `StopIteration` of `next` (820) or an exception of the RAW classes. -/
inductive Fail where | stop | raw (e : Err)
  deriving DecidableEq, Repr

variable {V U : Type} [AddCommGroup V] [Module ℚ V]

/-- A completed RunTask as far as this function uses it: number, return code, journal of edits, and the RAW file: `none` when `raw_file`
is None, otherwise what `RawRead(raw_file)` gives (827, 842). -/
structure Task (V U : Type) where
  runno : Nat
  retcode : Int
  edits : Option (List (Model.Updates.Update U))
  raw : Option (Except Err (Source V))

/-- sim_runner.py 200-211, the tasks an iterator delivers: those that match and whose simulation succeeded. -/
def chosen [DecidableEq U] (conds : Model.Updates.Conditions U (Task V U)) (tasks : List (Task V U)) : List (Task V U) :=
  tasks.filter (fun t => Model.Updates.matchConditions conds t t.edits && t.retcode == 0)

/-- The default of `admissible_error` (raw_write.py 238): 1e-11. -/
def adm : ℚ := 1 / 100000000000

/-- sim_runner.py 829-834: the new RawWrite object. -/
def blank : File V := ⟨false, [], [], none, [], [], []⟩

/-- sim_runner.py 837-844: the loop. `k` numbers the RawRead objects that are created. -/
def addRuns (save : List Str) : Nat → List (Task V U) → File V → Bool → Except Fail (File V × Bool)
  | _, [], w, ok => .ok (w, ok)
  | k, t :: ts, w, ok =>
    match t.raw with
    | none => addRuns save k ts w false                            -- 839-841
    | some (.error e) => .error (.raw e)                           -- 842
    | some (.ok o) =>
      match addTraces ⟨true, adm, 0, some (Model.PyStr.showNat t.runno)⟩ { o with id := k } save w with
      | .error e => .error (.raw e)
      | .ok w' => addRuns save (k + 1) ts w' ok

/-- raw_write.py 151-152 (`save`): consolidation of pending imports. -/
def saved (w : File V) : Except Fail (File V) :=
  if w.pending = [] then .ok w
  else
    match consolidate w with
    | .error e => .error (.raw e)
    | .ok f => .ok f

/-- sim_runner.py 835-845: the loop, `save`, and the value returned. -/
def collect (save : List Str) (tasks : List (Task V U)) : Except Fail (Bool × Option (File V)) :=
  match addRuns save 0 tasks blank true with
  | .error e => .error e
  | .ok (w, ok) =>
    match saved w with
    | .error e => .error e
    | .ok f => .ok (ok, some f)

/-- sim_runner.py 803-845, `create_raw_file_with`: the value returned and the content of the file written, if any. -/
def create [DecidableEq U] (save : List Str) (conds : Model.Updates.Conditions U (Task V U)) (tasks : List (Task V U)) :
    Except Fail (Bool × Option (File V)) :=
  match chosen conds tasks with
  | [] => .error .stop                                             -- 820
  | t :: ts =>
    match t.raw with
    | none => .ok (false, none)                                    -- 823-825
    | some (.error e) => .error (.raw e)                           -- 827
    | some (.ok _) => collect save (t :: ts)

end Model.RunFile
