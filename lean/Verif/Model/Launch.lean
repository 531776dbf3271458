import Verif.Model.Wait
import Verif.Model.Runner
/-
How SimRunner.run waits for a free place (spicelib/sim/sim_runner.py 557-588), with its clock, and what run and run_now do when there is no
timeout at all (563-566, 614-632). Times are rational numbers; a simulation is the `Job` of Model/Wait; update_completed looks at all threads at
one moment.
-/
namespace Model.Launch
open Model.Wait (Job update)

/-- The moments of a turn of the loop: of the comparison with the time limit (566) and of update_completed (570, through active_threads). -/
structure Turn where
  test : ℚ
  u : ℚ

/-- How `run` ends: the task is started in the k-th turn (from 0), the wait is given up (None is returned), or a TypeError. -/
inductive End where
  | started (k : Nat)
  | gaveUp
  | typeErr
  deriving DecidableEq, Repr

/-- sim_runner.py 566-588: `limit` is timeout + 1. After `n` turns without a result: none. -/
def loop (parallel : Nat) (wait : Bool) (t0 limit : ℚ) (clock : Nat → Turn) : Nat → Nat → List Job → Option End
  | 0, _, _ => none
  | n + 1, k, active =>
    if (clock k).test - t0 < limit then
      if wait = false then some (.started k)
      else
        let r := update (clock k).u active 0
        if r.1.length < parallel then some (.started k) else loop parallel wait t0 limit clock n (k + 1) r.1
    else some .gaveUp

/-- sim_runner.py 563-588 for a call at moment `t0` with the given timeout; `runner` is that of the constructor. Without both, `timeout + 1` is a TypeError. -/
def run (parallel : Nat) (wait : Bool) (runner timeout : Option ℚ) (t0 : ℚ) (clock : Nat → Turn) (n : Nat) (active : List Job) : Option End :=
  match timeout.or runner with
  | none => some .typeErr
  | some t => loop parallel wait t0 (t + 1) clock n 0 active

/-- sim_runner.py 561-588 on the runner: the run number is increased and the netlist is written first (561); a task is created only when the simulation is started. -/
def runState (s : Model.Runner.St) (name : List Char) (explicit : Bool) : End → Model.Runner.St
  | .started _ => (Model.Runner.launch (Model.Runner.prepare s name explicit)).1
  | .gaveUp => Model.Runner.prepare s name explicit
  | .typeErr => Model.Runner.prepare s name explicit

/-- sim_runner.py 608-632 without any timeout: the task is started, then `t.join(timeout + 1)` is a TypeError; lines 633-639 are not reached. -/
def runNowNoTimeout (s : Model.Runner.St) (name : List Char) (explicit : Bool) : Model.Runner.St :=
  Model.Runner.spawn (Model.Runner.prepare s name explicit)

end Model.Launch
