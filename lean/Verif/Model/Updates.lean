/-
Model of spicelib/editor/updates.py (the edit journal) and of TaskIterator.match_conditions
(spicelib/sim/sim_runner.py).
-/
namespace Model.Updates

/-- updates.py 14-29, class UpdateType. -/
inductive UpdateType where
  | invalidUpdate | updateParameter | updateComponentValue | updateComponentParameter
  | deleteParameter | deleteComponent | deleteComponentParameter | deleteInstruction
  | addParameter | addComponent | addComponentParameter | addInstruction
  | updateInstruction | cloneSubcircuit
  deriving DecidableEq, Repr

/-- updates.py 32-37, dataclass Update. Values (`str | int | float | None`) are an arbitrary type with
decidable equality standing for Python's `==`. -/
structure Update (V : Type) where
  name : String
  value : V
  kind : UpdateType
  deriving DecidableEq, Repr

variable {V : Type} [DecidableEq V]

/-- updates.py 103-105: the test that stops the search loop. -/
def hits (name : String) (value : V) (kind : UpdateType) (u : Update V) : Bool :=
  u.name == name &&
  (name != "INSTRUCTION" || value == u.value) &&
  (u.kind == kind || kind == UpdateType.invalidUpdate)

/-- updates.py 110-112: the assignments made on the record found (or just appended). -/
def assign (value : V) (kind : UpdateType) (u : Update V) : Update V :=
  { u with kind := if kind ≠ .invalidUpdate then kind else u.kind, value := value }

/-- updates.py 100-113, Updates.add_update: `for … break / else append`, then the assignments.
The journal is the list `netlist_updates`; mutation of the record is replacement in the list. -/
def addUpdate (name : String) (value : V) (kind : UpdateType) : List (Update V) → List (Update V)
  | [] => [assign value kind ⟨name, value, kind⟩]
  | u :: us =>
    if hits name value kind u then assign value kind u :: us
    else u :: addUpdate name value kind us

/-- updates.py 86-89, Updates.__getitem__(str): first record with that name (`none` = IndexError). -/
def getByName (name : String) (j : List (Update V)) : Option (Update V) :=
  j.find? (fun u => u.name == name)

/-- updates.py 115-120, Updates.value. Outer `none` stands for Python's final `return None`. -/
def value (ref : String) (j : List (Update V)) : Option V :=
  (j.find? (fun u => u.kind == .updateComponentValue && u.name == ref)).map (·.value)

/-- updates.py 122-127, Updates.parameter. -/
def parameter (name : String) (j : List (Update V)) : Option V :=
  (j.find? (fun u => (u.kind == .updateParameter || u.kind == .addParameter) && name == u.name)).map (·.value)

/-- updates.py 129-130, Updates.updates_on (`str.startswith` as list prefix of the characters). -/
def updatesOn (name : String) (j : List (Update V)) : List (Update V) :=
  j.filter (fun u => name.toList.isPrefixOf u.name.toList)

/-- A call of add_update. -/
structure Op (V : Type) where
  name : String
  value : V
  kind : UpdateType

/-- The journal after a sequence of add_update calls, starting from `Updates()` (updates.py 70-71). -/
def journal (ops : List (Op V)) : List (Update V) :=
  ops.foldl (fun j o => addUpdate o.name o.value o.kind j) []

/-! TaskIterator.match_conditions, sim_runner.py 171-194 -/

/-- The value of one entry of the dictionary of conditions: a plain value, or a list/tuple/set of
admissible values (sim_runner.py 182). A value that is itself a list and equal to the update's value
cannot occur, because update values are scalars (updates.py 6). -/
inductive CondValue (V : Type) where
  | one (v : V)
  | many (vs : List V)

/-- sim_runner.py 148-158: the filter is None, a dict, or a function of the task. -/
inductive Conditions (V T : Type) where
  | noFilter
  | dict (items : List (String × CondValue V))
  | func (f : T → Bool)

/-- sim_runner.py 181-183. -/
def condHit (name : String) (c : CondValue V) (u : Update V) : Bool :=
  name == u.name && (match c with | .one v => v == u.value | .many vs => vs.contains u.value)

/-- sim_runner.py 179-190: the inner `for update … break / else return False`. -/
def innerLoop (name : String) (c : CondValue V) : List (Update V) → Bool
  | [] => false
  | u :: us => if condHit name c u then true else innerLoop name c us

/-- sim_runner.py 177-191: the outer loop over the dictionary. -/
def dictLoop (edits : List (Update V)) : List (String × CondValue V) → Bool
  | [] => true
  | (n, c) :: rest => if innerLoop n c edits then dictLoop edits rest else false

/-- sim_runner.py 171-194, TaskIterator.match_conditions. `edits = none` is a task without snapshot
(`runtask.edits is None`); an empty snapshot is falsy as well (Updates defines `__len__`). -/
def matchConditions {T : Type} (conds : Conditions V T) (task : T) (edits : Option (List (Update V))) : Bool :=
  match conds with
  | .noFilter => true
  | .dict items =>
    match edits with
    | none => false
    | some [] => false
    | some j => dictLoop j items
  | .func f =>
    match edits with
    | none => false
    | some [] => false
    | some _ => f task

end Model.Updates
