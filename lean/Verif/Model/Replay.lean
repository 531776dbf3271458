/-
Model of the recording and replay of set-up commands: /repo/spicelib/sim/tookit/sim_analysis.py 103-156 and
tolerance_deviations.py 158-201.  Commands are uninterpreted: the editor is seen as the list of editor commands
executed since its last reset.
-/
namespace Model.Replay

/-- State: `applied` = commands executed on the editor since the last `editor.reset_netlist()`,
`received` = `received_instructions`, `added` = `instructions_added` (sim_analysis.py 57-58),
`prepared` = `testbench_prepared` (tolerance_deviations.py 79), `saved` = what the simulator / the user was given
so far (each entry is the content of the editor at that moment). -/
structure S (C : Type) where
  applied : List C
  received : List C
  added : Bool
  prepared : Bool
  saved : List (List C)

variable {C : Type}

/-- `__init__` (sim_analysis.py 48-59). -/
def init : S C := ⟨[], [], false, false, []⟩

/-- `set_component_value`, `set_element_model`, `set_parameter`, `add_instruction`, `remove_instruction`,
`remove_Xinstruction` of the analysis object (sim_analysis.py 116-132): recorded, not executed. -/
def record (c : C) (s : S C) : S C := { s with received := s.received ++ [c] }

/-- `_reset_netlist` (sim_analysis.py 109-114 and tolerance_deviations.py 163-165). -/
def resetInternal (s : S C) : S C := { s with applied := [], added := false, prepared := false }

/-- `SimAnalysis._reset_netlist` called through `super()` (tolerance_deviations.py 197): leaves `prepared`. -/
def resetBase (s : S C) : S C := { s with applied := [], added := false }

/-- `reset_netlist` (sim_analysis.py 103-107). -/
def resetNetlist (s : S C) : S C := { resetInternal s with received := [] }

/-- `play_instructions` (sim_analysis.py 134-152). -/
def play (s : S C) : S C :=
  if s.added then s else { s with applied := s.applied ++ s.received, added := true }

/-- A command executed directly on the editor. -/
def direct (c : C) (s : S C) : S C := { s with applied := s.applied ++ [c] }

/-- The netlist is written out: `save_netlist` (sim_analysis.py 154-156) after playing, or a simulation. -/
def emit (s : S C) : S C := { s with saved := s.saved ++ [s.applied] }

/-- `save_netlist` (sim_analysis.py 154-156). -/
def save (s : S C) : S C := emit (play s)

/-- `prepare_testbench` of the worst-case, sensitivity and Monte-Carlo analyses (worst_case.py 68-99,
quick_sensitivity_analysis.py 34-61, montecarlo.py 61-154): the component expressions go through
`self.set_component_value`, i.e. they are recorded (`recs`); parameters and instructions go directly to the editor
(`dirs`). The relative order of recorded and direct commands does not matter in this model. -/
def prepare (recs dirs : List C) (s : S C) : S C :=
  { s with received := s.received ++ recs, applied := s.applied ++ dirs, prepared := true }

/-- The netlist that the batches of `run_testbench` simulate (tolerance_deviations.py 196-201 and the launches
211-222, represented by one snapshot). -/
def runTestbench (recs dirs : List C) (s : S C) : S C :=
  emit (if s.prepared then play s else prepare recs dirs (play (resetBase s)))

/-- The netlist of the nominal run of the `run_analysis` methods (worst_case.py 148-153,
quick_sensitivity_analysis.py 135-141, fast_worst_case.py 172-175). -/
def runAnalysis (s : S C) : S C := emit (play (resetInternal s))

/-- User level operations (without direct edits of the editor object). -/
inductive Op (C : Type)
  | record (c : C)
  | play
  | save
  | runAnalysis
  | resetNetlist

/-- Execution of an operation. -/
def exec (s : S C) : Op C → S C
  | .record c => record c s
  | .play => play s
  | .save => save s
  | .runAnalysis => runAnalysis s
  | .resetNetlist => resetNetlist s

end Model.Replay
