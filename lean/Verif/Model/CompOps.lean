import Verif.Model.Netlist
/-
Model of the component operations of a circuit: spicelib/editor/spice_subcircuit.py (get_component, set_component_value,
set_element_model, set_component_parameters, add_component, remove_component, add_instruction and remove_instruction of a
sub-circuit), spicelib/editor/spice_components.py (SpiceComponent.set_value, set_parameter, begin_update, end_update) and
spicelib/editor/primitives.py (Component).

A component object has a number; its attributes are kept in a table under that number, so that what is done to the object is
seen wherever the object is used. The line of a component is taken as parsed (`bad` for a line which cannot be parsed).

Not modelled: references with ':' (Model.Hier), ports, numbers as values (values are text or None), the special treatment of
sub-circuit instances (Model.Hier).
-/
namespace Model.CompOps
open Model.PyStr
open Model.Netlist (Str Perm)
open Model.Updates (UpdateType)

/-- A value: text, or None. -/
abbrev Val := Option Str

inductive Err where
  | notFound | unparsable | assertion | value | permission | runtime | unmodelled
  deriving DecidableEq, Repr

/-- primitives.py 86-113: a Component: reference, the 'value' and 'params' attributes, and whether it has a netlist. -/
structure Cell where
  ref : Str
  value : Val
  params : List (Str × Val)
  attached : Bool
  deriving DecidableEq, Repr

/-- An element of `netlist`: a string, a Primitive, a component line that cannot be parsed, a component object, a sub-circuit
definition. -/
inductive Item where
  | text (s : Str)
  | prim (s : Str)
  | bad
  | comp (id : Nat)
  | circ (name : Str)
  deriving DecidableEq, Repr

/-- The editor with its top circuit. -/
structure Ed where
  perm : Perm
  items : List Item
  cells : Nat → Cell
  calls : List (Str × Val × UpdateType)

/-- What get_component returns. -/
inductive Hit where
  | comp (id : Nat)
  | circ
  deriving DecidableEq, Repr

/-- spice_subcircuit.py 474-487: the loop of get_component, with the position of the element found (netlist.index, which
compares objects, finds the same position: an earlier occurrence of the object would have been the hit). -/
def find (cells : Nat → Cell) (up : Str) : List Item → Except Err (Nat × Hit)
  | [] => .error .notFound
  | .circ name :: r => if upper name = up then .ok (0, .circ) else (find cells up r).map (fun p => (p.1 + 1, p.2))
  | .comp id :: r => if upper (cells id).ref = up then .ok (0, .comp id) else (find cells up r).map (fun p => (p.1 + 1, p.2))
  | .bad :: _ => .error .unparsable
  | .text _ :: r => (find cells up r).map (fun p => (p.1 + 1, p.2))
  | .prim _ :: r => (find cells up r).map (fun p => (p.1 + 1, p.2))

def Ed.get (ed : Ed) (ref : Str) : Except Err (Nat × Hit) := find ed.cells (upper ref) ed.items

/-- base_subcircuit.py 53-59: end_update of the editor. -/
def Ed.record (ed : Ed) (name : Str) (v : Val) (k : UpdateType) : Ed :=
  if ed.perm = .inform then { ed with calls := ed.calls ++ [(name, v, k)] } else ed

def Ed.setCell (ed : Ed) (id : Nat) (c : Cell) : Ed := { ed with cells := fun i => if i = id then c else ed.cells i }

/-- spice_components.py 461-462: begin_update of a component: its netlist's permission, or Initializing without netlist. -/
def Ed.permOf (ed : Ed) (id : Nat) : Perm := if (ed.cells id).attached then ed.perm else .initializing

/-- spice_components.py 464-466: end_update of a component. -/
def Ed.recordOf (ed : Ed) (id : Nat) (name : Str) (v : Val) (k : UpdateType) : Ed :=
  if (ed.cells id).attached then ed.record name v k else ed

/-- spice_components.py 431-438: SpiceComponent.set_value. -/
def setValueOf (ed : Ed) (id : Nat) (v : Val) : Except Err Ed :=
  if ed.permOf id = .deny then .error .permission
  else
    let ed' := ed.setCell id { ed.cells id with value := v }
    .ok (if ed.permOf id = .inform then ed'.recordOf id (ed.cells id).ref v .updateComponentValue else ed')

/-- A Python dict: assignment keeps the position of an existing key. -/
def putP (d : List (Str × Val)) (k : Str) (v : Val) : List (Str × Val) :=
  match d with
  | [] => [(k, v)]
  | (k', v') :: d => if k' = k then (k', v) :: d else (k', v') :: putP d k v

/-- primitives.py 263-274: Component.set_parameter on the dictionary of parameters. -/
def setParam (d : List (Str × Val)) (k : Str) (v : Val) : List (Str × Val) :=
  match v with
  | none => d.filter (fun kv => kv.1 ≠ k)
  | some _ => putP d k v

/-- spice_components.py 451-456: what kind of change it is. -/
def paramChange (d : List (Str × Val)) (k : Str) (v : Val) : UpdateType :=
  match v with
  | none => .deleteComponentParameter
  | some _ => if k ∈ d.map Prod.fst then .updateComponentParameter else .addComponentParameter

/-- spice_components.py 445-459: SpiceComponent.set_parameter. -/
def setParameterOf (ed : Ed) (id : Nat) (k : Str) (v : Val) : Except Err Ed :=
  if ed.permOf id = .deny then .error .permission
  else
    let c := ed.cells id
    let ed' := ed.setCell id { c with params := setParam c.params k v }
    .ok (if ed.permOf id = .inform then ed'.recordOf id (c.ref ++ ':' :: k) v (paramChange c.params k v) else ed')

/-- spice_components.py 440-443: SpiceComponent.set_parameters. -/
def setParametersOf (ed : Ed) (id : Nat) : List (Str × Val) → Except Err Ed
  | [] => .ok ed
  | (k, v) :: kvs => match setParameterOf ed id k v with
    | .error e => .error e
    | .ok ed => setParametersOf ed id kvs

/-- spice_subcircuit.py 651-678: set_component_value. -/
def setComponentValue (ed : Ed) (ref : Str) (v : Val) : Except Err Ed :=
  match ed.get ref with
  | .error e => .error e
  | .ok (_, .circ) => .error .assertion
  | .ok (_, .comp id) => setValueOf ed id v

/-- spice_subcircuit.py 680-709: set_element_model. The update is recorded by the component and again here. -/
def setElementModel (ed : Ed) (ref : Str) (v : Val) : Except Err Ed :=
  if ed.perm = .deny then .error .value
  else match ed.get ref with
    | .error e => .error e
    | .ok (_, .circ) => .error .assertion
    | .ok (_, .comp id) => match setValueOf ed id v with
      | .error e => .error e
      | .ok ed => .ok (ed.record ref v .updateComponentValue)

/-- spice_subcircuit.py 566-570: set_component_parameters. On a sub-circuit definition it sets the parameters of the
definition (not modelled). -/
def setComponentParameters (ed : Ed) (ref : Str) (kvs : List (Str × Val)) : Except Err Ed :=
  if ed.perm = .deny then .error .value
  else match ed.get ref with
    | .error e => .error e
    | .ok (_, .circ) => .error .unmodelled
    | .ok (_, .comp id) => setParametersOf ed id kvs

/-- spice_subcircuit.py 711-718: get_component_value (`none` inside is the ValueNotFoundError). -/
def getComponentValue (ed : Ed) (ref : Str) : Except Err Val :=
  match ed.get ref with
  | .error e => .error e
  | .ok (_, .circ) => .error .assertion
  | .ok (_, .comp id) => .ok (ed.cells id).value

/-- spice_subcircuit.py 553-564: get_component_parameters, without the 'Value' entry added at the end. -/
def getComponentParameters (ed : Ed) (ref : Str) : Except Err (List (Str × Val)) :=
  match ed.get ref with
  | .error e => .error e
  | .ok (_, .circ) => .error .value
  | .ok (_, .comp id) => .ok (ed.cells id).params

/-- The keyword argument of add_component. -/
inductive Where where
  | default
  | before (ref : Str)
  | after (ref : Str)
  deriving DecidableEq, Repr

/-- `netlist.insert(i, e)` for a non negative index. -/
def insertAt (i : Nat) (e : Item) (l : List Item) : List Item := l.take i ++ e :: l.drop i

/-- spice_subcircuit.py 780-793: the position of the new component. `'.backanno\n'` is compared with the elements: only an
element that is a string can be equal. A negative `len - 2` ends up at the start of these one-element lists. -/
def addPosition (ed : Ed) : Where → Except Err Nat
  | .before ref => (ed.get ref).map Prod.fst
  | .after ref => (ed.get ref).map (fun p => p.1 + 1)
  | .default => .ok ((ed.items.idxOf? (.text ".backanno\n".toList)).getD (ed.items.length - 2))

/-- spice_subcircuit.py 762-797: add_component of the object number `id`. -/
def addComponent (ed : Ed) (id : Nat) (w : Where) : Except Err Ed :=
  if ed.perm = .deny then .error .value
  else match addPosition ed w with
    | .error e => .error e
    | .ok i => .ok ({ ed with items := insertAt i (.comp id) ed.items }.record (ed.cells id).ref (ed.cells id).value .addComponent)

/-- spice_subcircuit.py 799-817: remove_component. -/
def removeComponent (ed : Ed) (ref : Str) : Except Err Ed :=
  if ed.perm = .deny then .error .value
  else match ed.get ref with
    | .error e => .error e
    | .ok (i, _) => .ok ({ ed with items := ed.items.eraseIdx i }.record ref (some "delete".toList) .deleteComponent)

/-! ### Operations on component objects -/

/-- primitives.py 81: VALUE_IDs -/
def valueIds : List Str := ["value".toList, "val".toList, "v".toList, "value_str".toList, "model".toList, "Value".toList]

/-- primitives.py 210-216: `component[key] = value`. (With a value id and text, the text is turned into a number when it is
one; values are text here.) -/
def setItem (ed : Ed) (id : Nat) (k : Str) (v : Val) : Except Err Ed :=
  if k ∈ valueIds then .ok (ed.setCell id { ed.cells id with value := v })
  else setParameterOf ed id k v

/-- primitives.py 127-129: the setter of `component.reference`. -/
def setReference (ed : Ed) (id : Nat) (r : Str) : Ed := ed.setCell id { ed.cells id with ref := r }

/-- primitives.py 282-288: clear_parameters. -/
def clearParameters (ed : Ed) (id : Nat) : Ed :=
  ed.setCell id { ed.cells id with params := (ed.cells id).params.map (fun kv => (kv.1, none)) }

/-- primitives.py 290-296: clear_parameter. -/
def clearParameter (ed : Ed) (id : Nat) (k : Str) : Ed :=
  ed.setCell id { ed.cells id with params := putP (ed.cells id).params k none }

/-- spice_components.py 351-356: one parameter as it is written back (`str(None)` is None). -/
def showParam (kv : Str × Val) : Str := kv.1 ++ '=' :: kv.2.getD "None".toList

/-! ### Instructions of sub-circuits -/

/-- A sub-circuit (spice_subcircuit.py 105-130, base_subcircuit.py 27-59): its elements, the flag _modified, and the editor it
belongs to (permission and journal). -/
structure Sub where
  perm : Perm
  items : List Netlist.Elem
  modified : Bool
  calls : List (Str × Str × UpdateType)
  deriving DecidableEq, Repr

/-- base_subcircuit.py 53-59: end_update of a sub-circuit: the flag is set whatever the permission. -/
def Sub.record (s : Sub) (v : Str) (k : UpdateType) : Sub :=
  { s with modified := true,
           calls := if s.perm = .inform then s.calls ++ [("INSTRUCTION".toList, v, k)] else s.calls }

/-- spice_subcircuit.py 863-887: SpiceCircuit.add_instruction (on a sub-circuit). There is no permission check and no
end_update. `-1` for an empty netlist inserts at the start. -/
def subAddInstruction (s : Sub) (instruction : Str) : Except Netlist.Err Sub :=
  match Netlist.lineCommand instruction with
  | none => .error .syntaxErr
  | some cmd => match Netlist.isUnique cmd with
    | none => .error .syntaxErr
    | some true => .error .runtime
    | some false =>
      if cmd = ".PARAM".toList then .error .runtime
      else match Netlist.findText instruction s.items with
        | .error e => .error e
        | .ok (some _) => .ok s
        | .ok none =>
          .ok { s with items := Netlist.insertAt (s.items.length - 1) (Netlist.classFor (Netlist.withNewline instruction) cmd) s.items }

/-- spice_subcircuit.py 889-910: SpiceCircuit.remove_instruction (on a sub-circuit). -/
def subRemoveInstruction (s : Sub) (instruction : Str) : Except Netlist.Err (Sub × Bool) :=
  if s.perm = .deny then .ok (s, false)
  else match Netlist.findText instruction s.items with
    | .error e => .error e
    | .ok none => .ok (s, false)
    | .ok (some i) => .ok ({ s with items := s.items.eraseIdx i }.record (Netlist.logText instruction) .deleteInstruction, true)

/-- spice_subcircuit.py 912-936: SpiceCircuit.remove_Xinstruction (on a sub-circuit); `p` is `regex.match`. -/
def subRemoveX (s : Sub) (p : Str → Bool) : Sub × Bool :=
  if s.perm = .deny then (s, false)
  else
    let (kept, removed) := Netlist.dropMatching p s.items
    (removed.foldl (fun e t => e.record (strip t) .deleteInstruction) { s with items := kept }, !removed.isEmpty)

end Model.CompOps
