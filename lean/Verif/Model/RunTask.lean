/-
Model of RunTask.run / get_results / wait_results (spicelib/sim/run_task.py 115-218). The simulator, the
file system and the user's callback are parameters.
-/
namespace Model.RunTask

/-- What `simulator.run` does (run_task.py 125-131): returns a code or raises. -/
inductive SimOutcome where
  | returned (rc : Int)
  | raised
  deriving DecidableEq, Repr

/-- What the user's callback does when called (run_task.py 167-182). `process v` is a ProcessCallback whose
queue delivers `v`. `nameless` is a callable without `__name__` (a functools.partial, an object with `__call__`): the message of line 166
raises an AttributeError, outside of the `try`, before the call; the thread ends there. -/
inductive Callback (V : Type) where
  | returns (v : V)
  | process (v : V)
  | raises
  | nameless

inductive LogFile where | dotLog | dotFail
  deriving DecidableEq, Repr

/-- Observable effects, in order. -/
inductive Event where
  | renameLogToFail
  | callback (rawGiven : Bool) (log : LogFile)
  deriving DecidableEq, Repr

/-- The task attributes after `run()`. `raw = true` means `raw_file` is set, otherwise it is None. -/
structure Result (V : Type) where
  retcode : Int
  raw : Bool
  log : LogFile
  callbackReturn : Option V
  events : List Event

/-- run_task.py 115-190, RunTask.run. Existence of the raw and log files after the simulation is given by
`rawExists`, `logExists`. Logging and time bookkeeping are left out. -/
def run {V : Type} (sim : SimOutcome) (rawExists logExists : Bool) (cb : Option (Callback V)) (onError : Bool) :
    Result V :=
  let retcode : Int := match sim with | .returned rc => rc | .raised => -2          -- 125-130
  let (raw, someError, log, ev) :=
    if retcode = 0 then                                                              -- 143
      if rawExists && logExists then (true, false, LogFile.dotLog, [])               -- 145
      else (true, true, LogFile.dotLog, [])                                          -- 148-150
    else if logExists then (false, true, LogFile.dotFail, [Event.renameLogToFail])   -- 155-156
    else (false, true, LogFile.dotLog, [])
  match cb with
  | none => ⟨retcode, raw, log, none, ev⟩                                            -- 188-190
  | some c =>
    if onError || !someError then                                                    -- 159
      let ret := match c with | .returns v => some v | .process v => some v | .raises => none | .nameless => none   -- 167-182
      let calls := match c with | .nameless => [] | _ => [Event.callback raw log]                                       -- 166
      ⟨retcode, raw, log, ret, ev ++ calls⟩
    else ⟨retcode, raw, log, none, ev⟩

/-- What `get_results()` returns (run_task.py 192-208). -/
inductive Answer (V : Type) where
  | notFinished
  | callbackReturn (v : Option V)
  | files (raw : Bool) (log : LogFile)

/-- run_task.py 192-208; `finished` = not alive and start_time set. -/
def getResults {V : Type} (finished : Bool) (hasCallback : Bool) (r : Result V) : Answer V :=
  if !finished then .notFinished
  else if hasCallback then .callbackReturn r.callbackReturn
  else .files r.raw r.log

/-- run_task.py 216: the condition of the busy-wait loop of wait_results; `retcode` is −1 until set (88). -/
def waitLoops (finished : Bool) (retcode : Int) : Bool := !finished || retcode == -1

end Model.RunTask
