import Verif.Model.Netlist
/-
Model of component values in a hierarchy of sub-circuits: spicelib/editor/spice_subcircuit.py (SpiceCircuit.get_component,
get_subcircuit_named, clone, set_component_value, get_component_value), spicelib/editor/spice_subcircuit_instance.py
(SpiceCircuitInstance.subcircuit, begin_update, end_update, set_value), spicelib/editor/spice_components.py
(SpiceComponent.set_value) and spicelib/editor/base_subcircuit.py (begin_update, end_update).

The values (the 'value' attribute) live in a store, each component object having its own cell, so that two objects that share
a cell would show each other's edits. What a component's line says is found once (reset_attributes), at any time: the line
does not change, so that the moment is not observable. Lines that reset_attributes cannot parse are `bad`.

Not modelled: addressing a sub-circuit definition by its name as if it were an instance; library files (find_subckt_in_lib);
numbers as values (they are formatted when read, format_eng).
-/
namespace Model.Hier
open Model.PyStr
open Model.Netlist (Str Perm Err)
open Model.Updates (UpdateType)

/-- The elements of a netlist, one after the other. `inst` is a sub-circuit instance whose sub-circuit was not looked into
so far (shadow_subcircuit is None), `opened` one that has its own copy `body` of the definition; `name` is the name of that
copy and `modified` its _modified flag. -/
inductive Net where
  | nil
  | text (rest : Net)
  | bad (rest : Net)
  | comp (ref : Str) (a : Nat) (rest : Net)
  | inst (ref : Str) (a : Nat) (rest : Net)
  | opened (ref : Str) (a : Nat) (name : Str) (body : Net) (modified : Bool) (rest : Net)
  | circ (name : Str) (body : Net) (rest : Net)
  deriving DecidableEq, Repr

/-- The cells of the component objects, and the number of the next object. -/
structure Store where
  vals : Nat → Str
  fresh : Nat

def Store.alloc (s : Store) (v : Str) : Store × Nat :=
  (⟨fun i => if i = s.fresh then v else s.vals i, s.fresh + 1⟩, s.fresh)

def Store.set (s : Store) (a : Nat) (v : Str) : Store := ⟨fun i => if i = a then v else s.vals i, s.fresh⟩

/-- The elements of a circuit cloned (spice_subcircuit.py 375-383, primitives.py 275-282): every component gets an object of
its own with the same value; copies of instances have no shadow. -/
def cloneBody : Net → Store → Net × Store
  | .nil, s => (.nil, s)
  | .text r, s => let (r', s) := cloneBody r s; (.text r', s)
  | .bad r, s => let (r', s) := cloneBody r s; (.bad r', s)
  | .comp ref a r, s =>
    let (s, b) := s.alloc (s.vals a)
    let (r', s) := cloneBody r s
    (.comp ref b r', s)
  | .inst ref a r, s =>
    let (s, b) := s.alloc (s.vals a)
    let (r', s) := cloneBody r s
    (.inst ref b r', s)
  | .opened ref a _ _ _ r, s =>
    let (s, b) := s.alloc (s.vals a)
    let (r', s) := cloneBody r s
    (.inst ref b r', s)
  | .circ name body r, s =>
    let (body', s) := cloneBody body s
    let (r', s) := cloneBody r s
    (.circ name (.text body') r', s)           -- 374 for a nested circuit (the line added at its end, 384, is left out)

/-- spice_subcircuit.py 363-388: clone; the comment added in front (374). -/
def clone (n : Net) (s : Store) : Net × Store := let (b, s) := cloneBody n s; (.text b, s)

/-- The first sub-circuit of this name among the elements (spice_subcircuit.py 323-327; included files are not modelled). -/
def findCirc (name : Str) : Net → Option Net
  | .nil => none
  | .text r => findCirc name r
  | .bad r => findCirc name r
  | .comp _ _ r => findCirc name r
  | .inst _ _ r => findCirc name r
  | .opened _ _ _ _ _ r => findCirc name r
  | .circ n b r => if n = name then some b else findCirc name r

/-- spice_subcircuit.py 314-336 and spice_subcircuit_instance.py 64-69: get_subcircuit_named. `scope` lists the circuits
around an instance, the innermost first; the copy made for an instance has the circuit around the instance as its parent. -/
def findNamed (name : Str) : List Net → Option Net
  | [] => none
  | c :: cs => match findCirc name c with
    | some b => some b
    | none => findNamed name cs

/-- spice_subcircuit_instance.py 55 and 60: the name looked up is `self.value`, which try_value turns into a number when it
can (`numeric`, primitives.py 12-22); no name equals a number. -/
def definition (numeric : Str → Bool) (scope : List Net) (value : Str) : Option Net :=
  if numeric value then none else findNamed value scope

/-- An instance on the way to a component: its cell, the name of its copy and whether the copy was marked modified before. -/
structure Step where
  ref : Str
  a : Nat
  name : Str
  modified : Bool
  deriving DecidableEq, Repr

/-- What get_component finds: the elements (with new copies where they were needed), the store, the cell of the component, its
reference, whether it is an instance, and the instances on the way, the outermost first. -/
structure Found where
  net : Net
  store : Store
  a : Nat
  ref : Str
  isInst : Bool
  via : List Step

inductive LErr where
  | notFound     -- ComponentNotFoundError
  | unparsable   -- NotImplementedError or UnrecognizedSyntaxError of a component line
  | noDefinition -- AssertionError: the sub-circuit is not found
  | wrongKind    -- AttributeError or AssertionError: not a component / not an instance
  deriving DecidableEq, Repr

/-- `a.upper() == b` -/
def sameRef (a up : Str) : Bool := upper a = up

/-- One level of get_component (spice_subcircuit.py 462-490): the elements are tried in order. `down` is what to do with the
circuit of an instance (none: the instance itself is wanted); `scope` are the circuits around the instance. `mark` says
whether copies on the way get the _modified flag, which end_update sets when the edit is made. -/
def walk (numeric : Str → Bool) (mark : Bool) (up : Str) (down : Option (List Net → Net → Store → Except LErr Found)) (scope : List Net) :
    Net → Store → Except LErr Found
  | .nil, _ => .error .notFound
  | .text r, s => match walk numeric mark up down scope r s with
    | .error e => .error e
    | .ok f => .ok { f with net := .text f.net }
  | .bad _, _ => .error .unparsable
  | .comp ref a r, s =>
    if sameRef ref up then
      match down with
      | none => .ok ⟨.comp ref a r, s, a, ref, false, []⟩
      | some _ => .error .wrongKind
    else match walk numeric mark up down scope r s with
      | .error e => .error e
      | .ok f => .ok { f with net := .comp ref a f.net }
  | .inst ref a r, s =>
    if sameRef ref up then
      match down with
      | none => .ok ⟨.inst ref a r, s, a, ref, true, []⟩
      | some k =>
        match definition numeric scope (s.vals a) with
        | none => .error .noDefinition
        | some b =>
          let name := s.vals a ++ '_' :: ref                      -- spice_subcircuit_instance.py 60
          let (body, s) := clone b s
          match k scope body s with
          | .error e => .error e
          | .ok f => .ok { f with net := .opened ref a name f.net mark r, via := ⟨ref, a, name, false⟩ :: f.via }
    else match walk numeric mark up down scope r s with
      | .error e => .error e
      | .ok f => .ok { f with net := .inst ref a f.net }
  | .opened ref a name body m r, s =>
    if sameRef ref up then
      match down with
      | none => .ok ⟨.opened ref a name body m r, s, a, ref, true, []⟩
      | some k =>
        match k scope body s with
        | .error e => .error e
        | .ok f => .ok { f with net := .opened ref a name f.net (m || mark) r, via := ⟨ref, a, name, m⟩ :: f.via }
    else match walk numeric mark up down scope r s with
      | .error e => .error e
      | .ok f => .ok { f with net := .opened ref a name body m f.net }
  | .circ name body r, s =>
    if sameRef name up then .error .wrongKind
    else match walk numeric mark up down scope r s with
      | .error e => .error e
      | .ok f => .ok { f with net := .circ name body f.net }

/-- get_component for a reference cut at the colons, upper-cased (spice_subcircuit.py 462-473): all but the last part have to
start with X. -/
def locate (numeric : Str → Bool) (mark : Bool) : List Str → List Net → Net → Store → Except LErr Found
  | [] => fun _ _ _ => .error .notFound
  | [r] => fun scope n s => walk numeric mark r none (n :: scope) n s
  | r :: p => fun scope n s =>
    if r.head? = some 'X' then walk numeric mark r (some (locate numeric mark p)) (n :: scope) n s else .error .notFound

/-- The editor. -/
structure Ed where
  perm : Perm
  net : Net
  store : Store
  calls : List (Str × Str × UpdateType)

/-- The reference with the references of the instances on the way in front (spice_subcircuit_instance.py 107). -/
def fullRef (via : List Step) (r : Str) : Str := via.foldr (fun s acc => s.ref ++ ':' :: acc) r

/-- spice_subcircuit_instance.py 89-101: the first edit below an instance records the clone and renames the instance. The
outermost instance comes first, `pre` are the ones passed already. -/
def beginUpdate (pre : List Step) : List Step → Store → List (Str × Str × UpdateType) → Store × List (Str × Str × UpdateType)
  | [], s, calls => (s, calls)
  | x :: xs, s, calls =>
    if x.modified then beginUpdate (pre ++ [x]) xs s calls
    else
      let old := s.vals x.a
      beginUpdate (pre ++ [x]) xs (s.set x.a x.name)
        (calls ++ [(fullRef pre ("CLONE(".toList ++ old ++ [')']), old, .cloneSubcircuit), (fullRef pre x.ref, x.name, .updateComponentValue)])

/-- spice_subcircuit_instance.py 71-75: a new value of an instance drops its copy of the old sub-circuit. Only the first
element with the reference at the end of the path is concerned. -/
def dropShadow (up : Str) (down : Option (Net → Net)) : Net → Net
  | .nil => .nil
  | .text r => .text (dropShadow up down r)
  | .bad r => .bad r
  | .comp ref a r => if sameRef ref up then .comp ref a r else .comp ref a (dropShadow up down r)
  | .inst ref a r => if sameRef ref up then .inst ref a r else .inst ref a (dropShadow up down r)
  | .opened ref a name b m r =>
    if sameRef ref up then
      match down with
      | none => .inst ref a r
      | some k => .opened ref a name (k b) m r
    else .opened ref a name b m (dropShadow up down r)
  | .circ name b r => if sameRef name up then .circ name b r else .circ name b (dropShadow up down r)

def dropAt : List Str → Net → Net
  | [] => id
  | [r] => dropShadow r none
  | r :: p => dropShadow r (some (dropAt p))

/-- get_component_value (spice_subcircuit.py 704-712) for a reference given as its parts: the value and the editor afterwards
(looking into an instance makes its copy). -/
def getValue (numeric : Str → Bool) (ed : Ed) (path : List Str) : Except LErr (Ed × Str) :=
  match locate numeric false (path.map upper) [] ed.net ed.store with
  | .error e => .error e
  | .ok f => .ok ({ ed with net := f.net, store := f.store }, f.store.vals f.a)

inductive SetErr where
  | lookup (e : LErr)
  | permission
  deriving DecidableEq, Repr

/-- set_component_value (spice_subcircuit.py 651-678, spice_components.py 431-438): the editor afterwards and whether it
raised. -/
def setValue (numeric : Str → Bool) (ed : Ed) (path : List Str) (v : Str) : Ed × Option SetErr :=
  match locate numeric false (path.map upper) [] ed.net ed.store with
  | .error e => (ed, some (.lookup e))
  | .ok f =>
    if ed.perm = .deny then ({ ed with net := f.net, store := f.store }, some .permission)
    else
      -- while the editor is being initialised nothing is recorded and no copy is marked
      let mark := decide (ed.perm = .inform)
      match locate numeric mark (path.map upper) [] ed.net ed.store with
      | .error e => (ed, some (.lookup e))
      | .ok g =>
        let (s, calls) := if mark then beginUpdate [] g.via g.store ed.calls else (g.store, ed.calls)
        let s := s.set g.a v
        let calls := if mark then calls ++ [(fullRef g.via g.ref, v, .updateComponentValue)] else calls
        ({ ed with net := if g.isInst then dropAt (path.map upper) g.net else g.net, store := s, calls := calls }, none)

end Model.Hier
