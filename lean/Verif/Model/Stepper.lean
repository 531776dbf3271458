/-
Model of /repo/spicelib/sim/sim_stepping.py (SimStepper).

Simplifications:
* A swept iterable is a finite list of values together with how Python's `iter()` behaves on it
  (`Kind`).  Infinite iterables are not modelled.
* The editor is a map from (kind of sweep, element name) to the last value set; `set_element_model`
  and `set_component_value` are kept as separate keys.
* `runner.run` is an oracle `task : Nat → Option Nat` (launch index ↦ run number of the returned task,
  `none` when `run` returned None); it does not change the editor.
-/
namespace Model.Stepper

/-- How `iter(obj)` behaves: `fresh` – list/tuple/range, each `iter` makes an independent iterator;
`selfReset` – spicelib's own sweep objects (utils/sweep_iterators.py 73-77, 128-131, 162-165), `iter`
rewinds and returns the object itself; `oneShot` – generators, `iter` returns the object unchanged. -/
inductive Kind | fresh | selfReset | oneShot
  deriving DecidableEq, Repr

/-- `StepInfo.what` (sim_stepping.py 140, 146, 152). -/
inductive What | param | component | model
  deriving DecidableEq, Repr

/-- `StepInfo` (sim_stepping.py 37-44): `obj` is the identity of the iterable object. -/
structure Dim (V : Type) where
  what : What
  elem : Nat
  obj : Nat
  kind : Kind
  vals : List V

/-- Where the position of an iterator is stored: in a private iterator (list-like), or in the
iterable object itself. -/
inductive Handle | own (dim : Nat) | shared (obj : Nat)
  deriving DecidableEq, Repr

/-- The iterator object held in `iterators[i]` (line 198/204). -/
def handle {V : Type} (i : Nat) (d : Dim V) : Handle :=
  match d.kind with
  | .fresh => .own i
  | .selfReset => .shared d.obj
  | .oneShot => .shared d.obj

/-- Function update. -/
def upd {α β : Type} [DecidableEq α] (f : α → β) (a : α) (b : β) : α → β :=
  fun x => if x = a then b else f x

/-- Effect of `iter(step.iter)` on the stored positions (lines 198, 204). -/
def iterReset {V : Type} (pos : Handle → Nat) (i : Nat) (d : Dim V) : Handle → Nat :=
  match d.kind with
  | .fresh => upd pos (.own i) 0
  | .selfReset => upd pos (.shared d.obj) 0
  | .oneShot => pos

/-- State of `run_all` (lines 197-233). `launches` is the ghost list of snapshots handed to
`runner.run`: the editor contents and `current_values`. -/
structure St (V : Type) where
  iterNo : Int
  pos : Handle → Nat
  editor : What × Nat → Option V
  cur : Nat → Option V
  launches : List ((What × Nat → Option V) × (Nat → Option V))
  simInfo : Nat → Option (Nat → Option V)

/-- One pass through the control flow of `run_all` (lines 199-233).
`none` is the `break` of line 220 (end of the sweep). -/
def step {V : Type} (dims : List (Dim V)) (task : Nat → Option Nat) (s : St V) : Option (St V) :=
  if s.iterNo < 0 then none                                       -- lines 219-220
  else match dims[s.iterNo.toNat]? with
    | some d =>                                                   -- line 200: 0 <= iter_no < len
      let i := s.iterNo.toNat
      match d.vals[s.pos (handle i d)]? with
      | none =>                                                   -- lines 203-206
        some { s with pos := iterReset s.pos i d, iterNo := s.iterNo - 1 }
      | some v =>                                                 -- lines 208-218
        some { s with
          pos := upd s.pos (handle i d) (s.pos (handle i d) + 1)
          cur := upd s.cur d.elem (some v)
          editor := upd s.editor (d.what, d.elem) (some v)
          iterNo := s.iterNo + 1 }
    | none =>                                                     -- lines 222-233
      some { s with
        launches := s.launches ++ [(s.editor, s.cur)]
        simInfo := match task s.launches.length with
          | some r => upd s.simInfo r (some s.cur)
          | none => s.simInfo
        iterNo := (dims.length : Int) - 1 }

/-- Initial state of `run_all` (lines 197-198): every iterable is passed to `iter` in order. -/
def resetAll {V : Type} : Nat → List (Dim V) → (Handle → Nat) → Handle → Nat
  | _, [], pos => pos
  | i, d :: ds, pos => resetAll (i + 1) ds (iterReset pos i d)

def init {V : Type} (dims : List (Dim V)) (pos : Handle → Nat) (editor : What × Nat → Option V)
    (cur : Nat → Option V) (simInfo : Nat → Option (Nat → Option V)) : St V :=
  { iterNo := 0, pos := resetAll 0 dims pos, editor, cur, launches := [], simInfo }

/-- `run_all` with a bound on the number of loop steps; `none` = not finished within the bound. -/
def runAll {V : Type} (dims : List (Dim V)) (task : Nat → Option Nat) : Nat → St V → Option (St V)
  | 0, _ => none
  | n + 1, s => match step dims task s with
    | none => some s
    | some s' => runAll dims task n s'

/-- `StepInfo.__len__` (43-44): `len(list(self.iter))`, which calls `iter` and exhausts it. -/
def lenStep {V : Type} (pos : Handle → Nat) (_i : Nat) (d : Dim V) : Nat × (Handle → Nat) :=
  match d.kind with
  | .fresh => (d.vals.length, pos)
  | .selfReset => (d.vals.length, upd pos (.shared d.obj) d.vals.length)
  | .oneShot => (d.vals.length - pos (.shared d.obj), upd pos (.shared d.obj) (max d.vals.length (pos (.shared d.obj))))

/-- `total_number_of_simulations` (154-163): product of the lengths, empty ones skipped. -/
def totalFrom {V : Type} : Nat → List (Dim V) → (Handle → Nat) → Nat → Nat × (Handle → Nat)
  | _, [], pos, total => (total, pos)
  | i, d :: ds, pos, total =>
    let r := lenStep pos i d
    totalFrom (i + 1) ds r.2 (if r.1 ≠ 0 then total * r.1 else total)

def total {V : Type} (dims : List (Dim V)) (pos : Handle → Nat) : Nat × (Handle → Nat) :=
  totalFrom 0 dims pos 1

end Model.Stepper
