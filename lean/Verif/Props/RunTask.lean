import Verif.Model.RunTask
/-
C13: callback discipline of RunTask (sim/run_task.py).
-/
namespace Props.RunTask
open Model.RunTask
variable {V : Type}

/-- "The run succeeded": the simulator returned 0 and left both result files. -/
def Succeeded (sim : SimOutcome) (rawExists logExists : Bool) : Prop :=
  sim = .returned 0 ∧ rawExists = true ∧ logExists = true

def callbackCalls (r : Result V) : List Event :=
  r.events.filter (fun e => match e with | .callback _ _ => true | _ => false)

/-- C13: the return code is the simulator's, or −2 if the simulator raised. -/
theorem C13_retcode (sim : SimOutcome) (re le : Bool) (cb : Option (Callback V)) (oe : Bool) :
    (sim = .raised → (run sim re le cb oe).retcode = -2) ∧
    (∀ rc, sim = .returned rc → (run sim re le cb oe).retcode = rc) := by
  constructor
  · rintro rfl; cases re <;> cases le <;> rcases cb with _ | _ | _ | _ | _ <;> cases oe <;> rfl
  · rintro rc rfl
    by_cases h : rc = 0 <;> cases re <;> cases le <;> rcases cb with _ | _ | _ | _ | _ <;> cases oe <;> simp [run, h]

/-- A callback that has a name (every function, method and class has one). -/
def Named (cb : Option (Callback V)) : Prop := cb.isSome = true ∧ cb ≠ some .nameless

/-- C13: the callback is called at most once, and it is called exactly when there is one (with a name) and the run
succeeded or `callback_on_error` is set. -/
theorem C13_callback_exactly_when (sim : SimOutcome) (re le : Bool) (cb : Option (Callback V)) (oe : Bool) :
    (callbackCalls (run sim re le cb oe)).length ≤ 1 ∧
    ((callbackCalls (run sim re le cb oe)).length = 1 ↔
      Named cb ∧ (oe = true ∨ Succeeded sim re le)) := by
  unfold Succeeded Named
  rcases sim with rc | _
  · by_cases h : rc = 0 <;> cases re <;> cases le <;> rcases cb with _ | _ | _ | _ | _ <;> cases oe <;>
      simp [run, h, callbackCalls]
  · cases re <;> cases le <;> rcases cb with _ | _ | _ | _ | _ <;> cases oe <;> simp [run, callbackCalls]

/-- C13: what the callback is given: the raw file exactly if the return code is 0, and the log under its
current name. -/
theorem C13_callback_arguments (sim : SimOutcome) (re le : Bool) (cb : Option (Callback V)) (oe : Bool)
    (raw : Bool) (log : LogFile) (h : Event.callback raw log ∈ (run sim re le cb oe).events) :
    (raw = true ↔ sim = .returned 0) ∧ (log = .dotFail ↔ sim ≠ .returned 0 ∧ le = true) := by
  rcases sim with rc | _
  · by_cases h0 : rc = 0 <;> revert h <;> cases re <;> cases le <;> rcases cb with _ | _ | _ | _ | _ <;> cases oe <;>
      simp +contextual [run, h0]
  · revert h; cases re <;> cases le <;> rcases cb with _ | _ | _ | _ | _ <;> cases oe <;>
      simp +contextual [run]

/-- C13: the log file is renamed to .fail exactly when the run failed (non-zero code or exception) and a log
exists, at most once, and before the callback. -/
theorem C13_log_renamed_iff_failed (sim : SimOutcome) (re le : Bool) (cb : Option (Callback V)) (oe : Bool) :
    (Event.renameLogToFail ∈ (run sim re le cb oe).events ↔ (run sim re le cb oe).retcode ≠ 0 ∧ le = true) ∧
    ((run sim re le cb oe).log = .dotFail ↔ (run sim re le cb oe).retcode ≠ 0 ∧ le = true) ∧
    (Event.renameLogToFail ∈ (run sim re le cb oe).events →
      (run sim re le cb oe).events.head? = some .renameLogToFail ∧
      Event.renameLogToFail ∉ (run sim re le cb oe).events.tail) := by
  rcases sim with rc | _
  · by_cases h : rc = 0 <;> cases re <;> cases le <;> rcases cb with _ | _ | _ | _ | _ <;> cases oe <;> simp [run, h]
  · cases re <;> cases le <;> rcases cb with _ | _ | _ | _ | _ <;> cases oe <;> simp [run]

/-- C13: `get_results` on a finished task: the callback's return value (None if it was not called or raised),
or the pair of files if there is no callback; nothing before the task is finished. -/
theorem C13_get_results (sim : SimOutcome) (re le : Bool) (cb : Option (Callback V)) (oe : Bool) (v : V) :
    getResults false cb.isSome (run sim re le cb oe) = .notFinished ∧
    (cb = none → getResults true cb.isSome (run sim re le cb oe) =
      .files (decide (sim = .returned 0)) (if sim ≠ .returned 0 ∧ le = true then .dotFail else .dotLog)) ∧
    (cb.isSome = true → (getResults true cb.isSome (run sim re le cb oe) = .callbackReturn (some v) ↔
      (cb = some (.returns v) ∨ cb = some (.process v)) ∧ (oe = true ∨ Succeeded sim re le))) := by
  unfold Succeeded
  refine ⟨rfl, ?_, ?_⟩
  · rintro rfl
    rcases sim with rc | _
    · by_cases h : rc = 0 <;> cases re <;> cases le <;> simp [run, h, getResults]
    · cases re <;> cases le <;> simp [run, getResults]
  · intro hc
    rcases sim with rc | _
    · by_cases h : rc = 0 <;> cases re <;> cases le <;> rcases cb with _ | _ | _ | _ | _ <;> cases oe <;>
        simp_all [run, getResults]
    · cases re <;> cases le <;> rcases cb with _ | _ | _ | _ | _ <;> cases oe <;> simp_all [run, getResults]

/-- C13: `wait_results` returns once the task has finished, exactly when the simulator did not return −1. -/
theorem C13_wait_results_ends_iff (sim : SimOutcome) (re le : Bool) (cb : Option (Callback V)) (oe : Bool) :
    waitLoops true (run sim re le cb oe).retcode = false ↔ sim ≠ .returned (-1) := by
  rcases sim with rc | _
  · rw [(C13_retcode _ re le cb oe).2 rc rfl]
    simp only [waitLoops, Bool.not_true, Bool.false_or, beq_eq_false_iff_ne]
    exact ⟨fun h e => h (by injection e), fun h e => h (by rw [e])⟩
  · rw [(C13_retcode _ re le cb oe).1 rfl]; simp [waitLoops]

/-- The unchanged code busy-waits for ever when the simulator returns −1 (e.g. killed with code −1),
because −1 doubles as "not finished yet". -/
theorem C13_wait_results_hangs_on_minus_one (re le : Bool) (cb : Option (Callback V)) (oe : Bool) :
    waitLoops true (run (.returned (-1)) re le cb oe).retcode = true := by
  rw [(C13_retcode _ re le cb oe).2 (-1) rfl]; rfl

/-- C13 limit: a callback without a name (functools.partial, an object with `__call__`) is never called, whatever happens; the results are None. -/
theorem C13_limit_nameless (sim : SimOutcome) (re le oe : Bool) :
    callbackCalls (run (V := V) sim re le (some .nameless) oe) = [] ∧ getResults true true (run (V := V) sim re le (some .nameless) oe) = .callbackReturn none := by
  rcases sim with rc | _
  · by_cases h : rc = 0 <;> cases re <;> cases le <;> cases oe <;> simp [run, h, callbackCalls, getResults]
  · cases re <;> cases le <;> cases oe <;> simp [run, callbackCalls, getResults]

example : (run (V := Nat) .raised false true (some (.returns 7)) true).events =
    [.renameLogToFail, .callback false .dotFail] := by decide
example : Succeeded (.returned 0) true true := ⟨rfl, rfl, rfl⟩
/-- A zero return code without result files is an error: no callback by default. -/
example : (run (V := Nat) (.returned 0) false true (some (.returns 7)) false).events = [] := by decide

end Props.RunTask
