/-
spicelib/sim/sim_runner.py `update_completed` (645-666) when several threads share one SimRunner, as on the simulation server: the
XML-RPC request thread calls it through `SimRunner.run` → `active_threads` (570, 640-643) and the thread of ServerSimRunner calls it
in its loop (srv_sim_runner.py 99). Nothing protects the two lists, so that every read and write of them is a step of its own here.

Simplifications: single list operations (`len`, `[i]`, `pop(i)`, `append`) and the increments of the counters are atomic (they are
not interruptible enough to matter in CPython; the increments are in fact two steps, which would only add more bad outcomes). Any
number of threads; a thread not inside `update_completed` may at any time launch a simulation, enter `update_completed` or take the
oldest completed task (srv_sim_runner.py 100-101). The other steps of these callers do not touch the lists.
-/
namespace Model.Race

/-- Life of a RunTask (run_task.py 76, 115-132; sim_runner.py 571-580): created and already in active_tasks but not started;
started but `start_time` not yet set; simulating; thread ended. -/
inductive Phase where | created | begun | running | ended
  deriving DecidableEq, Repr

/-- `Thread.is_alive()` -/
def isAlive : Phase → Bool
  | .begun => true | .running => true | _ => false

/-- `task.start_time is None` (run_task.py 76, 121) -/
def startNone : Phase → Bool
  | .created => true | .begun => true | _ => false

/-- Where a thread stands in update_completed (sim_runner.py 655-666). -/
inductive PC where
  | idle
  | head (i : Nat)              -- 656: `while i < len(self.active_tasks)`
  | alive (i : Nat)             -- 657: `self.active_tasks[i].is_alive()`
  | started (i : Nat)           -- 657: `self.active_tasks[i].start_time is None`
  | result (i : Nat)            -- 660: `self.active_tasks[i].retcode == 0`
  | bump (i : Nat) (ok : Bool)  -- 661, 664
  | pop (i : Nat)               -- 665
  | put (i t : Nat)             -- 666
  | crashed                     -- IndexError: the thread is gone
  deriving DecidableEq, Repr

/-- The runner and its tasks, numbered in order of creation; `retcode t` is None until the simulation of t ends; `taken` are the
tasks a caller took out of completed_tasks. -/
structure St where
  count : Nat
  phase : Nat → Phase
  retcode : Nat → Int
  active : List Nat
  completed : List Nat
  taken : List Nat
  okSim : Nat
  failSim : Nat
  pc : Nat → PC

/-- sim_runner.py 316-322; retcode is -1 by default (run_task.py 88). -/
def init : St :=
  { count := 0, phase := fun _ => .created, retcode := fun _ => -1, active := [], completed := [], taken := [],
    okSim := 0, failSim := 0, pc := fun _ => .idle }

inductive Act where
  | launch (th : Nat)            -- 571-579: create a task and append it to active_tasks
  | begin (t : Nat)              -- 580: `t.start()`
  | start (t : Nat)              -- run_task.py 121
  | ends (t : Nat) (rc : Int)    -- run_task.py 126-130 … end of the thread
  | call (th : Nat)              -- update_completed()
  | tick (th : Nat)              -- next step of update_completed
  | take (th : Nat)              -- srv_sim_runner.py 100-101: completed_tasks.pop(0)
  deriving DecidableEq, Repr

def goto (s : St) (th : Nat) (p : PC) : St := { s with pc := fun j => if j = th then p else s.pc j }

def setPhase (s : St) (t : Nat) (p : Phase) : St := { s with phase := fun j => if j = t then p else s.phase j }

/-- One step of update_completed (sim_runner.py 655-666) by thread `th`. -/
def tick (s : St) (th : Nat) : Option St :=
  match s.pc th with
  | .idle => none
  | .crashed => none
  | .head i => some (if i < s.active.length then goto s th (.alive i) else goto s th .idle)
  | .alive i => match s.active[i]? with
    | none => some (goto s th .crashed)
    | some t => some (if isAlive (s.phase t) then goto s th (.head (i + 1)) else goto s th (.started i))
  | .started i => match s.active[i]? with
    | none => some (goto s th .crashed)
    | some t => some (if startNone (s.phase t) then goto s th (.head (i + 1)) else goto s th (.result i))
  | .result i => match s.active[i]? with
    | none => some (goto s th .crashed)
    | some t => some (goto s th (.bump i (s.retcode t == 0)))
  | .bump i ok => some (goto (if ok then { s with okSim := s.okSim + 1 } else { s with failSim := s.failSim + 1 }) th (.pop i))
  | .pop i => match s.active[i]? with
    | none => some (goto s th .crashed)
    | some t => some (goto { s with active := s.active.eraseIdx i } th (.put i t))
  | .put i t => some (goto { s with completed := s.completed ++ [t] } th (.head i))

/-- One step of the whole system; `none` = not possible in this state. -/
def step (s : St) : Act → Option St
  | .launch th => if s.pc th = .idle
      then some { s with active := s.active ++ [s.count], count := s.count + 1 } else none
  | .begin t => if t < s.count ∧ s.phase t = .created then some (setPhase s t .begun) else none
  | .start t => if t < s.count ∧ s.phase t = .begun then some (setPhase s t .running) else none
  | .ends t rc => if t < s.count ∧ s.phase t = .running
      then some { setPhase s t .ended with retcode := fun j => if j = t then rc else s.retcode j } else none
  | .call th => if s.pc th = .idle then some (goto s th (.head 0)) else none
  | .tick th => tick s th
  | .take th => if s.pc th = .idle then
      match s.completed with
      | [] => none
      | t :: rest => some { s with completed := rest, taken := s.taken ++ [t] }
    else none

/-- A whole schedule. -/
def runAll : St → List Act → Option St
  | s, [] => some s
  | s, a :: as => match step s a with
    | none => none
    | some s' => runAll s' as

/-- States reachable by schedules that respect `G`. -/
inductive Reach (G : St → Act → Prop) : St → Prop
  | init : Reach G init
  | step {s a s'} : Reach G s → G s a → step s a = some s' → Reach G s'

/-- Every schedule. -/
def anySchedule (_ : St) (_ : Act) : Prop := True

/-- What a lock around update_completed, and around creating, appending and starting a task (571-580), would give: update_completed
is entered, and a task appended, only while no thread is inside update_completed, and it is entered only when every task has been
started. -/
def locked (s : St) : Act → Prop
  | .call _ => (∀ th, s.pc th = .idle) ∧ ∀ t, t < s.count → s.phase t ≠ .created
  | .launch _ => ∀ th, s.pc th = .idle
  | _ => True

/-- A lock around update_completed alone. -/
def oneAtATime (s : St) : Act → Prop
  | .call _ => ∀ th, s.pc th = .idle
  | _ => True

end Model.Race
