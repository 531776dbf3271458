import Verif.Model.EditSave
/-
An editing session on a netlist: the operations of Model.EditSave (set a value, set a parameter, save and open again), add_component and remove_component
(spicelib/editor/spice_subcircuit.py 762-815), add_instruction, remove_instruction and remove_Xinstruction (spicelib/editor/spice_file.py 24-133; the searches are those of Model.Netlist).

Simplifications: those of Model.EditSave; the editor is not read-only and the journal is left out (Model.Netlist, Model.CompOps); the component that is added was made from a line of text
(components made from keyword arguments: Model.NewComp); an instruction that is a component, a control section or an .include is not modelled here (`none`, as for an exception; Model.Netlist has them).
-/
namespace Model.Session
open Model.PyStr Model.CompLine
open Model.EditSave
open Model.Params (PV)
open Model.Netlist (withNewline lineCommand isUnique findUnique findText findBackanno classFor)

abbrev Str := List Char

/-- `self.netlist.index(self.get_component(ref))`: spice_subcircuit.py 474-490; objects are compared by identity. `none` is the ComponentNotFoundError. -/
def indexOf (ref : Str) : List El → Option Nat
  | [] => none
  | .comp _ a :: es => if upper a.ref = upper ref then some 0 else (indexOf ref es).map (· + 1)
  | .item _ :: es => (indexOf ref es).map (· + 1)

/-- The keyword arguments of add_component (spice_subcircuit.py 773-777). -/
inductive Place where
  | default
  | before (ref : Str)
  | after (ref : Str)
  deriving DecidableEq, Repr

/-- spice_subcircuit.py 784-797. `netlist.index('.backanno\n')` finds nothing: directives are not strings. -/
def position (es : List El) : Place → Option Nat
  | .before r => indexOf r es
  | .after r => (indexOf r es).map (· + 1)
  | .default => some (es.length - 2)

/-- add_component: spice_subcircuit.py 762-799, with a component made from the line `s` (spice_components.py 240-287). -/
def addComponent (w : WordClass) (numeric : Str → Bool) (shown : PV → Str) (s : Str) (place : Place) (es : List El) : Option (List El) :=
  match toEl w numeric shown (.comp s), position es place with
  | some el, some i => some (es.take i ++ el :: es.drop i)
  | _, _ => none

/-- remove_component: spice_subcircuit.py 801-818. -/
def removeComponent (ref : Str) (es : List El) : Option (List El) := (indexOf ref es).map es.eraseIdx

/-- spice_subcircuit.py 843-861, for directives and comments. -/
def elFor (ins cmd : Str) : Option El :=
  match classFor ins cmd with
  | .prim s => some (.item (.prim s))
  | .text s => some (.item (.text s))
  | _ => none

/-- spice_file.py 71-84: the position is the first .backanno line, otherwise that of the last element. -/
def insertInstruction (ins cmd : Str) (es : List El) : Option (List El) :=
  let i := (findBackanno (es.map asElem)).getD (es.length - 1)
  (elFor ins cmd).map (fun el => es.take i ++ el :: es.drop i)

/-- spice_file.py 61-84: an instruction that does not replace another one. -/
def addOther (ins cmd : Str) (es : List El) : Option (List El) :=
  match findText ins (es.map asElem) with
  | .error _ => none
  | .ok (some _) => some es
  | .ok none => insertInstruction ins cmd es

/-- add_instruction: spice_file.py 24-84. -/
def addInstruction (instruction : Str) (es : List El) : Option (List El) :=
  let ins := withNewline instruction
  match lineCommand ins with
  | none => none
  | some cmd => match isUnique cmd with
    | none => none
    | some true => match findUnique (es.map asElem) with
      | .error _ => none
      | .ok (some i) => some (es.set i (.item (.prim ins)))
      | .ok none => addOther ins cmd es
    | some false => if cmd = ".PARAM".toList then none else addOther ins cmd es

/-- remove_instruction: spice_file.py 86-106. -/
def removeInstruction (instruction : Str) (es : List El) : Option (List El) :=
  match findText instruction (es.map asElem) with
  | .error _ => none
  | .ok none => some es
  | .ok (some i) => some (es.eraseIdx i)

/-- remove_Xinstruction: spice_file.py 108-133; `p` is `regex.match`. -/
def removeX (p : Str → Bool) (es : List El) : List El :=
  es.filter (fun e => match (asElem e).str with | some s => !p s | none => true)

inductive Op where
  | edit (op : Model.EditSave.Op)
  | add (s : Str) (place : Place)
  | remove (ref : Str)
  | instruct (s : Str)
  | drop (s : Str)
  | dropAll (p : Str → Bool)

def step (w : WordClass) (numeric : Str → Bool) (shown : PV → Str) (included : Str → Option Str) (es : List El) : Op → Option (List El)
  | .edit op => Model.EditSave.step w numeric shown included es op
  | .add s place => addComponent w numeric shown s place es
  | .remove r => removeComponent r es
  | .instruct s => addInstruction s es
  | .drop s => removeInstruction s es
  | .dropAll p => some (removeX p es)

def run (w : WordClass) (numeric : Str → Bool) (shown : PV → Str) (included : Str → Option Str) (es : List El) : List Op → Option (List El)
  | [] => some es
  | op :: ops => (step w numeric shown included es op).bind (fun es => run w numeric shown included es ops)

end Model.Session
