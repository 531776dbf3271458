import Verif.Model.Replay
/-
C19: recorded analysis instructions are replayed once and in order.
-/
namespace Props.Replay
open Model.Replay
variable {C : Type}

/-- The commands recorded by a history since its last `reset_netlist` (specification). -/
def recorded : List (Op C) → List C
  | [] => []
  | ops => ops.foldl (fun acc o => match o with | .record c => acc ++ [c] | .resetNetlist => [] | _ => acc) []

theorem recorded_append (ops : List (Op C)) (o : Op C) :
    recorded (ops ++ [o]) = (match o with | .record c => recorded ops ++ [c] | .resetNetlist => [] | _ => recorded ops) := by
  have h : ∀ l : List (Op C), recorded l =
      l.foldl (fun acc o => match o with | .record c => acc ++ [c] | .resetNetlist => [] | _ => acc) [] := by
    intro l; cases l <;> rfl
  rw [h, List.foldl_append, ← h]; cases o <;> rfl

def run (ops : List (Op C)) : S C := ops.foldl exec init

theorem run_append (ops : List (Op C)) (o : Op C) : run (ops ++ [o]) = exec (run ops) o := by
  simp [run, List.foldl_append]

theorem inv (ops : List (Op C)) :
    (run ops).received = recorded ops ∧ (run ops).applied <+: (run ops).received ∧
    ((run ops).added = false → (run ops).applied = []) := by
  have key : ∀ rev : List (Op C), (run rev.reverse).received = recorded rev.reverse ∧
      (run rev.reverse).applied <+: (run rev.reverse).received ∧
      ((run rev.reverse).added = false → (run rev.reverse).applied = []) := by
    intro rev
    induction rev with
    | nil => exact ⟨rfl, ⟨[], rfl⟩, fun _ => rfl⟩
    | cons o l ih =>
      rw [List.reverse_cons, run_append, recorded_append]
      obtain ⟨h1, h2, h3⟩ := ih
      generalize run l.reverse = s at *
      cases o with
      | record c =>
        refine ⟨by simp [exec, record, h1], ?_, h3⟩
        exact h2.trans (List.prefix_append _ _)
      | play =>
        simp only [exec, play]
        cases ha : s.added with
        | true => simp only [if_true]; exact ⟨h1, h2, h3⟩
        | false => simp [h1, h3 ha]
      | save =>
        simp only [exec, save, play, emit]
        cases ha : s.added with
        | true => simp only [if_true]; exact ⟨h1, h2, h3⟩
        | false => simp [h1, h3 ha]
      | runAnalysis => simp [exec, runAnalysis, play, emit, resetInternal, h1]
      | resetNetlist => simp [exec, resetNetlist, resetInternal]
  simpa using key ops.reverse

/-- C19: in every history, the commands applied to the netlist since its last reset are a prefix of the recorded
ones: each at most once, in recording order, never one of before the last `reset_netlist`. -/
theorem C19_applied_is_prefix_of_recorded (ops : List (Op C)) :
    (run ops).applied <+: recorded ops := by
  have := inv ops; rw [this.1] at this; exact this.2.1

/-- C19: whatever happened before, each `run_analysis` starts from the pristine netlist with exactly the recorded
commands applied, each once and in order. -/
theorem C19_analysis_replays_all (ops : List (Op C)) :
    (run (ops ++ [.runAnalysis])).saved = (run ops).saved ++ [recorded ops] := by
  rw [run_append, ← (inv ops).1]
  simp [exec, runAnalysis, play, emit, resetInternal]

/-- C19: saving after recording (nothing played since the last reset) writes exactly the recorded commands, and any
number of further plays, saves or recordings does not apply any command again. -/
theorem C19_played_once (ops tail : List (Op C)) (cmds : List C) (h0 : (run ops).added = false)
    (htail : ∀ o ∈ tail, (∃ c, o = .record c) ∨ o = .play ∨ o = .save) :
    (run (ops ++ cmds.map .record ++ [.save] ++ tail)).applied = recorded ops ++ cmds := by
  have h1 : ∀ (l : List C) (s : S C), ((l.map Op.record).foldl exec s) = { s with received := s.received ++ l } := by
    intro l
    induction l with
    | nil => intro s; simp
    | cons c l ih => intro s; simp [ih, exec, record]
  have h2 : ∀ (l : List (Op C)) (s : S C), s.added = true → (∀ o ∈ l, (∃ c, o = .record c) ∨ o = .play ∨ o = .save) →
      (l.foldl exec s).applied = s.applied := by
    intro l
    induction l with
    | nil => intros; rfl
    | cons o l ih =>
      intro s hs ho
      rw [List.foldl_cons, ih]
      · rcases ho o (by simp) with ⟨c, rfl⟩ | rfl | rfl
        · rfl
        · simp [exec, play, hs]
        · simp [exec, save, emit, play, hs]
      · rcases ho o (by simp) with ⟨c, rfl⟩ | rfl | rfl
        · exact hs
        · simp [exec, play, hs]
        · simp [exec, save, emit, play, hs]
      · intro o' h; exact ho o' (by simp [h])
  have hi := inv ops
  unfold run at *
  rw [List.foldl_append, h2 tail _ _ htail, List.foldl_append, List.foldl_append, h1]
  · simp only [List.foldl_cons, List.foldl_nil, exec, save, emit, play, h0]
    simp [hi.2.2 h0, hi.1]
  · rw [List.foldl_append, List.foldl_append, h1]
    simp only [List.foldl_cons, List.foldl_nil, exec, save, emit, play, h0]
    simp

/-- C19 counter-example: a command recorded after the netlist was saved is not in the next saved netlist. -/
theorem C19_late_command_not_applied :
    (run [.record 1, .save, .record 2, .save]).saved = [[1], [1]] := rfl

/-- C19: `run_testbench` on a testbench that was not prepared by an explicit call simulates a netlist which has the
recorded commands and the instructions of the testbench but none of the component expressions that
`prepare_testbench` recorded: the deviations of components are not applied. -/
theorem C19_unprepared_testbench_lacks_deviations (recs dirs : List C) (s : S C) (h : s.prepared = false) :
    (runTestbench recs dirs s).saved = s.saved ++ [s.received ++ dirs] := by
  simp [runTestbench, h, resetBase, play, prepare, emit]

/-- C19: when `prepare_testbench` was called explicitly first (on a netlist not yet played), the expressions are
applied, once, after the commands recorded before. -/
theorem C19_prepared_testbench_applies_deviations (recs dirs recs' dirs' : List C) (s : S C) (h : s.added = false) :
    (runTestbench recs' dirs' (prepare recs dirs s)).saved =
      s.saved ++ [s.applied ++ dirs ++ (s.received ++ recs)] := by
  simp [runTestbench, play, prepare, emit, h]

example : (run [.record 1, .record 2, .runAnalysis, .record 3, .runAnalysis, .resetNetlist, .record 4, .save]).saved
    = [[1, 2], [1, 2, 3], [4]] := rfl

end Props.Replay
