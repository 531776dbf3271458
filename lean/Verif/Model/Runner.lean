/-
Model of spicelib/sim/sim_runner.py: SimRunner bookkeeping and TaskIterator, as a state machine in which
the steps of the single client thread are interleaved with the life-cycle steps of the RunTask threads.
-/
namespace Model.Runner

/-! ### File names (pathlib and `_run_file_name`) -/

/-- `pathlib.PurePath.stem` and `.suffix` of a file name (Python ≤ 3.13): the suffix starts at the last dot
unless that dot is the first or the last character of the name. Not part of spicelib, but used by
sim_runner.py 446-449. -/
def splitExt (name : List Char) : List Char × List Char :=
  let r := name.reverse
  let ext := r.takeWhile (· ≠ '.')
  match r.dropWhile (· ≠ '.') with
  | [] => (name, [])
  | dot :: before =>
    if before = [] ∨ ext = [] then (name, []) else (before.reverse, dot :: ext.reverse)

/-- sim_runner.py 443-449, `_run_file_name`: `"%s_%i%s" % (stem, runno, suffix)` where `.qsch` is replaced by
`.net` first (447-448: `with_suffix('.net')` keeps the stem). `name` is the last path component. -/
def runFileName (name : List Char) (runno : Nat) : List Char :=
  let (stem, suffix) := splitExt name
  let suffix := if suffix = ['.', 'q', 's', 'c', 'h'] then ['.', 'n', 'e', 't'] else suffix
  stem ++ '_' :: (Nat.toDigits 10 runno ++ suffix)

/-- run_task.py 138: `netlist_file.with_suffix('.log')`. -/
def logFileName (file : List Char) : List Char := (splitExt file).1 ++ ['.', 'l', 'o', 'g']

/-! ### The state machine -/

/-- Life-cycle of a RunTask thread (run_task.py 76, 115-132): `alive`: started but `start_time` still None;
`running`: `start_time` set, inside `simulator.run`; `simDone`: `retcode` set, callback phase;
`dead`: thread ended. -/
inductive Phase where | alive | running | simDone | dead
  deriving DecidableEq, Repr

/-- The attributes of a RunTask the runner reads (run_task.py 82, 88). -/
structure Task where
  runno : Nat
  phase : Phase
  retcode : Int
  deriving DecidableEq, Repr

/-- Where the client thread continues after `update_completed()` returns. -/
inductive Cont where
  | toIdle      -- plain call, cleanup_files
  | toRunTest   -- active_threads() inside run()
  | toWaitTest  -- first call of wait_completion (717)
  | toWaitCheck -- call inside the loop of wait_completion (724)
  | toIter      -- TaskIterator.__next__ (202)
  deriving DecidableEq, Repr

/-- Program counter of the client thread. -/
inductive PC where
  | idle
  | runLoop (wait : Bool)      -- head of the while loop of run (566)
  | runTest                    -- active_threads() returned (570)
  | upd (i : Nat) (k : Cont)   -- head of the while loop of update_completed (656)
  | joining (t : Nat)          -- inside t.join() of run_now (632)
  | waitTest                   -- head of the while loop of wait_completion (722)
  | waitCheck                  -- after update_completed in that loop (725)
  | iterTest                   -- after update_completed in __next__ (204)
  deriving DecidableEq, Repr

/-- The runner (sim_runner.py 316-322), one TaskIterator over it (163-169), the tasks created so far
(identified by creation index), and, as a history variable, `issued` (run number and default file name, if
any, of every `_prepare_sim`). -/
structure St where
  parallel : Nat
  runno : Nat
  active : List Nat
  completed : List Nat
  okSim : Nat
  failSim : Nat
  task : Nat → Task
  count : Nat
  issued : List (Nat × Option (List Char))
  counter : Nat
  pc : PC

/-- sim_runner.py 316-322. -/
def init (parallel : Nat) : St :=
  { parallel, runno := 0, active := [], completed := [], okSim := 0, failSim := 0,
    task := fun _ => ⟨0, .dead, -1⟩, count := 0, issued := [], counter := 0, pc := .idle }

/-- Schedule labels: life-cycle steps of task threads, calls made by the client, and client micro-steps. -/
inductive Act where
  | begin (t : Nat)                      -- thread t executes `self.start_time = time.time()`
  | simReturns (t : Nat) (rc : Int)      -- thread t executes `self.retcode = …` (126/130)
  | die (t : Nat)                        -- thread t ends
  | callRun (name : List Char) (explicit : Bool) (wait : Bool)
  | callRunBad (name : List Char)        -- run()/run_now() whose `_prepare_sim` raises (file missing)
  | callRunNow (name : List Char) (explicit : Bool)
  | callUpdate | callWait | callIter | callNext
  | tick                                 -- next micro-step of the client
  | timeout                              -- the client's pending wait/join times out
  deriving Repr

/-- Observable outputs of client steps. -/
inductive Out where
  | launched (t : Nat) | launchTimeout | runNowReturns (t : Nat)
  | waitReturns (b : Bool) | iterStarted | yields (t : Nat) | stopIteration | iterTimeout
  deriving DecidableEq, Repr

def setTask (s : St) (t : Nat) (f : Task → Task) : St :=
  { s with task := fun j => if j = t then f (s.task t) else s.task j }

/-- sim_runner.py 451-473, `_prepare_sim`: increments the run number first; the default file name is used
only if no `run_filename` was given. -/
def prepare (s : St) (name : List Char) (explicit : Bool) : St :=
  let n := s.runno + 1
  { s with runno := n, issued := s.issued ++ [(n, if explicit then none else some (runFileName name n))] }

/-- Creation and start of a RunTask (571-576, 580; 622-630). -/
def spawn (s : St) : St :=
  { s with task := fun j => if j = s.count then ⟨s.runno, .alive, -1⟩ else s.task j, count := s.count + 1 }

/-- sim_runner.py 571-582: create, append to active_tasks, start, return the task. (Appending and starting
are one step here: the client is single-threaded and `start()` returns with the thread alive.) -/
def launch (s : St) : St × Option Out :=
  ({ spawn s with active := s.active ++ [s.count], pc := .idle }, some (.launched s.count))

/-- sim_runner.py 634-638 and 660-664: success/failure counters. -/
def countResult (s : St) (t : Nat) : St :=
  if (s.task t).retcode = 0 then { s with okSim := s.okSim + 1 } else { s with failSim := s.failSim + 1 }

def contPC : Cont → PC
  | .toIdle => .idle | .toRunTest => .runTest | .toWaitTest => .waitTest
  | .toWaitCheck => .waitCheck | .toIter => .iterTest

/-- sim_runner.py 656-666: one iteration of the loop of update_completed (or its exit). -/
def updIter (s : St) (i : Nat) (k : Cont) : St :=
  match s.active[i]? with
  | none => { s with pc := contPC k }
  | some t =>
    if (s.task t).phase ≠ .dead then { s with pc := .upd (i + 1) k }
    else
      let s1 := countResult s t
      { s1 with active := s1.active.eraseIdx i, completed := s1.completed ++ [t], pc := .upd i k }

/-- sim_runner.py 200-224: the body of `__next__` after update_completed. `accept` is match_conditions (C12)
as a predicate of the task; `itWait` is the `wait` flag of the iterator (always True via the public API,
790-801). -/
def iterBody (accept : Nat → Bool) (itWait : Bool) (s : St) : St × Option Out :=
  match s.completed[s.counter]? with
  | some t =>
    let s1 := { s with counter := s.counter + 1 }
    if accept t then
      if (s.task t).retcode = 0 then
        ({ s1 with pc := .idle }, some (.yields t))
      else ({ s1 with pc := .upd 0 .toIter }, none)
    else ({ s1 with pc := .upd 0 .toIter }, none)
  | none =>
    if s.active = [] ∨ itWait = false then ({ s with pc := .idle }, some .stopIteration)
    else ({ s with pc := .upd 0 .toIter }, none)

/-- One step of the whole system; `none` = this label is not enabled in this state. -/
def step (accept : Nat → Bool) (itWait : Bool) (s : St) : Act → Option (St × Option Out)
  -- task threads (run_task.py 115-190)
  | .begin t => if t < s.count ∧ (s.task t).phase = .alive
      then some (setTask s t (fun x => { x with phase := .running }), none) else none
  | .simReturns t rc => if t < s.count ∧ (s.task t).phase = .running
      then some (setTask s t (fun x => { x with phase := .simDone, retcode := rc }), none) else none
  | .die t => if t < s.count ∧ (s.task t).phase = .simDone
      then some (setTask s t (fun x => { x with phase := .dead }), none) else none
  -- calls by the client
  | .callRun name explicit wait => if s.pc = .idle
      then some ({ prepare s name explicit with pc := .runLoop wait }, none) else none
  | .callRunBad name => if s.pc = .idle then some (prepare s name true, none) else none
  | .callRunNow name explicit => if s.pc = .idle          -- 608-632
      then some ({ spawn (prepare s name explicit) with pc := .joining s.count }, none) else none
  | .callUpdate => if s.pc = .idle then some ({ s with pc := .upd 0 .toIdle }, none) else none
  | .callWait => if s.pc = .idle then some ({ s with pc := .upd 0 .toWaitTest }, none) else none      -- 717
  | .callIter => if s.pc = .idle then some ({ s with counter := 0 }, some .iterStarted) else none   -- 196-198
  | .callNext => if s.pc = .idle then some ({ s with pc := .upd 0 .toIter }, none) else none          -- 200-202
  -- client micro-steps
  | .tick =>
    match s.pc with
    | .idle => none
    | .runLoop wait =>                                    -- 566-570
      if wait then some ({ s with pc := .upd 0 .toRunTest }, none) else some (launch s)
    | .runTest =>                                         -- 570, 583
      if s.active.length < s.parallel then some (launch s) else some ({ s with pc := .runLoop true }, none)
    | .upd i k => some (updIter s i k, none)
    | .joining t => if (s.task t).phase = .dead           -- 632-639
        then some ({ countResult s t with completed := s.completed ++ [t], pc := .idle }, some (.runNowReturns t)) else none
    | .waitTest => if s.active.length > 0                 -- 722-724, 733
        then some ({ s with pc := .upd 0 .toWaitCheck }, none)
        else some ({ s with pc := .idle }, some (.waitReturns (s.failSim == 0)))
    | .waitCheck => some ({ s with pc := .waitTest }, none)
    | .iterTest => some (iterBody accept itWait s)
  | .timeout =>
    match s.pc with
    | .runLoop _ => some ({ s with pc := .idle }, some .launchTimeout)                     -- 584-588
    | .joining t =>                                                                        -- join timed out, 632-639
        some ({ countResult s t with completed := s.completed ++ [t], pc := .idle }, some (.runNowReturns t))
    | .waitCheck => some ({ s with pc := .idle }, some (.waitReturns false))                -- 727-731
    | .iterTest => if s.completed[s.counter]? = none ∧ s.active ≠ [] ∧ itWait = true        -- 220-221
        then some ({ s with pc := .idle }, some .iterTimeout) else none
    | _ => none

/-- Reachable states under a schedule restriction `G`, with the outputs produced so far (oldest first). -/
inductive Reach (accept : Nat → Bool) (itWait : Bool) (parallel : Nat) (G : St → Act → Prop) : St → List Out → Prop
  | init : Reach accept itWait parallel G (init parallel) []
  | step {s outs a s' o} : Reach accept itWait parallel G s outs → G s a →
      step accept itWait s a = some (s', o) → Reach accept itWait parallel G s' (outs ++ o.toList)

end Model.Runner
