import Verif.Spec.PyCall
import Verif.Model.Runner
/-
Arguments of callbacks: SimRunner.validate_callback_args and the beginning of SimRunner.run (spicelib/sim/sim_runner.py 475-507,
557-560), the call in RunTask.run (spicelib/sim/run_task.py 167-171) and ProcessCallback (spicelib/sim/process_callback.py 30-50). The values of the arguments are of any type.
-/
namespace Model.Callback
open Spec.PyCall (Param Bound Str pyBind)

/-- CallbackArgsType: a tuple, a dictionary (keys are distinct) or None. -/
inductive Args (A : Type) where
  | none
  | tuple (vs : List A)
  | dict (d : List (Str × A))

def Args.length {A : Type} : Args A → Nat
  | .none => 0 | .tuple vs => vs.length | .dict d => d.length

/-- The ValueErrors of validate_callback_args: 488, 491, 496, 499. -/
inductive Refusal where | fewParameters | noArguments | notFound (name : Str) | count
  deriving DecidableEq, Repr

/-- 492-496: the first parameter from the third on that is not a key. -/
def notFound {A : Type} (d : List (Str × A)) : List Param → Option Str
  | [] => none
  | p :: ps => if (d.lookup p.name).isSome then notFound d ps else some p.name

/-- 502-505: the tuple as a dictionary. -/
def named {A : Type} : List Param → List A → List (Str × A)
  | p :: ps, v :: vs => (p.name, v) :: named ps vs
  | _, _ => []

/-- sim_runner.py 486-507 for a callback with the parameters `ps` (`inspect.signature(…).parameters`; for a subclass of ProcessCallback
those of its method `callback`). -/
def validate {A : Type} (ps : List Param) (args : Args A) : Except Refusal (Option (List (Str × A))) :=
  if ps.length < 2 then .error .fewParameters
  else if ps.length > 2 then
    match args with
    | .none => .error .noArguments
    | .tuple vs => if ps.length - 2 ≠ vs.length then .error .count else .ok (some (named (ps.drop 2) vs))
    | .dict d =>
      match notFound d (ps.drop 2) with
      | some n => .error (.notFound n)
      | none => if ps.length - 2 ≠ d.length then .error .count else .ok (some d)
  else .ok none

/-- sim_runner.py 482-483: without a callback the arguments are ignored. -/
def validateOpt {A : Type} (callback : Option (List Param)) (args : Args A) : Except Refusal (Option (List (Str × A))) :=
  match callback with
  | none => .ok none
  | some ps => validate ps args

/-- The value an argument of the callback has: the raw file, the log file or one of the user's. -/
inductive Arg (A : Type) where | raw | log | user (a : A)
  deriving DecidableEq, Repr

def userTable {A : Type} (kw : Option (List (Str × A))) : List (Str × Arg A) :=
  match kw with
  | none => []
  | some d => d.map (fun e => (e.1, .user e.2))

/-- run_task.py 167-171: `callback(raw_file, log_file, **callback_args)`; none: TypeError. -/
def call {A : Type} (ps : List Param) (kw : Option (List (Str × A))) : Option (List (Str × Bound (Arg A))) :=
  pyBind ps [.raw, .log] (userTable kw)

/-- process_callback.py 34-35: the parameters of the constructor. -/
def ctor : List Param :=
  [⟨"raw".toList, .normal, false⟩, ⟨"log".toList, .normal, false⟩, ⟨"group".toList, .normal, true⟩, ⟨"name".toList, .normal, true⟩,
   ⟨"daemon".toList, .keywordOnly, true⟩, ⟨"kwargs".toList, .varKeyword, false⟩]

/-- process_callback.py 34-44: the constructor is called with the files and the arguments (`self` is bound already: a keyword `self` is a
TypeError), and `run` calls the method `callback` with the files and what the constructor has kept in `kwargs`. -/
def processCall {A : Type} (ps : List Param) (kw : Option (List (Str × A))) : Option (List (Str × Bound (Arg A))) :=
  if ((userTable kw).lookup "self".toList).isSome then none
  else
    match pyBind ctor [.raw, .log] (userTable kw) with
    | none => none
    | some b =>
      match b.lookup "kwargs".toList with
      | some (.table t) => pyBind ps [.raw, .log] t
      | _ => none

/-- process_callback.py 43-46: what the process delivers. -/
def processResult {A : Type} (text : A) (ret : Option A) : A := ret.getD text

/-- sim_runner.py 557-560: the beginning of `run`: the arguments are checked before the run number is increased and the netlist is written. -/
def start {A : Type} (s : Model.Runner.St) (name : List Char) (explicit : Bool) (callback : Option (List Param)) (args : Args A) :
    Model.Runner.St × Except Refusal (Option (List (Str × A))) :=
  match validateOpt callback args with
  | .error e => (s, .error e)
  | .ok kw => (Model.Runner.prepare s name explicit, .ok kw)

end Model.Callback
