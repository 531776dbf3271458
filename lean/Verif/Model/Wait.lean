import Mathlib.Algebra.Order.Field.Rat
import Mathlib.Data.List.Count
/-
SimRunner.wait_completion with its clock: spicelib/sim/sim_runner.py 649-666 (update_completed, as far as it is used here), 677-687
(kill_all_spice), 689-704 (_maximum_stop_time) and 706-733. Times are rational numbers. A simulation is described by the moment its
thread sets its start time, the moment its thread ends, whether its return code is 0, and its own timeout; the clock gives for every turn of
the loop the moment of update_completed and the (later) moment of the comparison with the deadline. update_completed looks at all threads
at one moment.
-/
namespace Model.Wait

structure Job where
  start : Option ℚ
  stop : Option ℚ
  ok : Bool
  timeout : Option ℚ
  deriving DecidableEq, Repr

/-- sim_runner.py 658: started, and not alive any more, at moment `u`. -/
def Job.done (u : ℚ) (j : Job) : Bool :=
  match j.start, j.stop with
  | some s, some e => decide (s ≤ u) && decide (e ≤ u)
  | _, _ => false

/-- sim_runner.py 656-666: the simulations that remain active, and the number of failures found. -/
def update (u : ℚ) (active : List Job) (failed : Nat) : List Job × Nat :=
  (active.filter (fun j => !j.done u), failed + active.countP (fun j => j.done u && !j.ok))

/-- sim_runner.py 697-699: the moment at which the simulation exceeds its timeout. The start time counts when it has been set (`u` is the moment
of the question). -/
def limit (runner : Option ℚ) (u : ℚ) (j : Job) : Option ℚ :=
  match (match j.timeout with | some t => some t | none => runner), j.start with
  | some t, some s => if s ≤ u then some (s + t) else none
  | _, _ => none

/-- sim_runner.py 695-704. -/
def maxStop (runner : Option ℚ) (u : ℚ) : List Job → Option ℚ → Option ℚ
  | [], alarm => alarm
  | j :: js, alarm =>
    match limit runner u j with
    | none => maxStop runner u js alarm
    | some stop =>
      match alarm with
      | none => maxStop runner u js (some stop)
      | some a => maxStop runner u js (some (if stop > a then stop else a))

/-- The moments of a turn of the loop: of update_completed (724) and of the comparison (728). -/
structure Turn where
  u : ℚ
  c : ℚ

/-- sim_runner.py 718-721 and 725-727: the moment at which the wait is given up: the deadline, if there is one. -/
def stopAt (runner deadline : Option ℚ) (u : ℚ) (active : List Job) : Option ℚ :=
  match deadline with
  | some d => some d
  | none => maxStop runner u active none

/-- sim_runner.py 722-733: `deadline` is the given timeout after the beginning of the call, if any. After `n` turns without a result: none. -/
def loop (runner deadline : Option ℚ) (clock : Nat → Turn) : Nat → Nat → List Job → Nat → Option Bool
  | 0, _, active, failed => if active.length > 0 then none else some (failed == 0)
  | n + 1, k, active, failed =>
    if active.length > 0 then
      let r := update (clock k).u active failed
      match stopAt runner deadline (clock k).u r.1 with
      | some s => if (clock k).c > s then some false else loop runner deadline clock n (k + 1) r.1 r.2
      | none => loop runner deadline clock n (k + 1) r.1 r.2
    else some (failed == 0)

/-- sim_runner.py 706-733, wait_completion called at moment `t0` with `failed` failures so far; at most `n` turns. -/
def waitCompletion (runner timeout : Option ℚ) (t0 : ℚ) (clock : Nat → Turn) (n : Nat) (active : List Job) (failed : Nat) : Option Bool :=
  let r := update t0 active failed                                     -- 717
  loop runner (timeout.map (t0 + ·)) clock n 0 r.1 r.2

/-- simulator.py 92: the process name of the base class, which kill_all_spice (679-680) uses. -/
def baseProcessName : List Char := []

/-- sim_runner.py 681-687: the processes that kill_all_spice kills. -/
def killed (processes : List (List Char)) : List (List Char) := processes.filter (fun p => p = baseProcessName)

end Model.Wait
