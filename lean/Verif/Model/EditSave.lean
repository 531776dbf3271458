import Verif.Model.NetSave
import Verif.Model.SpiceParam
/-
Opening a netlist, setting values of its components, saving it and opening it again: spicelib/editor/spice_subcircuit.py 158-245
(_add_lines, write_lines; through Model.NetTree), 452-490 (get_component), 651-678 and 711-718 (set_component_value, get_component_value), 247-281 and 573-648 (get_parameter, set_parameter; through Model.SpiceParam),
spicelib/editor/spice_file.py 120-198 (save_netlist, reset_netlist), spicelib/editor/spice_components.py 240-387 (through
Model.CompLine).

Simplifications: components are read when the netlist is opened (in the code when they are looked for, with the same result, since
their lines do not change); parameters of included files are in Model.IncParam; components of sub-circuits are not addressed (Model.Hier), nor sub-circuit definitions by their name; values are
text; the editor is not read-only.
-/
namespace Model.EditSave
open Model.PyStr Model.Regex Model.CompLine
open Model.NetTree (Item writeItem)
open Model.NetSave (loadText untouchedLine)
open Model.Params (PV)

/-- An element of the netlist: a component with the line it was read from and its attributes, or something else. -/
inductive El where
  | comp (s : Str) (a : Attrs)
  | item (i : Item)

/-- spice_components.py 240-287 for the components; `none` is an exception. -/
def toEl (w : WordClass) (numeric : Str → Bool) (shown : PV → Str) : Item → Option El
  | .comp s => match reset w numeric shown s with
    | .error _ => none
    | .ok a => some (.comp s a)
  | .text s => some (.item (.text s))
  | .prim s => some (.item (.prim s))
  | .ctrl s => some (.item (.ctrl s))
  | .incl s => some (.item (.incl s))
  | .sub l => some (.item (.sub l))

def toEls (w : WordClass) (numeric : Str → Bool) (shown : PV → Str) : List Item → Option (List El)
  | [] => some []
  | i :: is => match toEl w numeric shown i, toEls w numeric shown is with
    | some e, some es => some (e :: es)
    | _, _ => none

/-- SpiceEditor(file): spice_file.py 178-198. -/
def openText (w : WordClass) (numeric : Str → Bool) (shown : PV → Str) (text : Str) : Option (List El) :=
  match loadText false text with
  | none => none
  | some items => toEls w numeric shown items

/-- spice_subcircuit.py 220-245: what is written for an element. `included`: Model.NetSave. -/
def writeEl (w : WordClass) (numeric : Str → Bool) (shown : PV → Str) (included : Str → Option Str) : El → Option Str
  | .comp s a => match rewrite w numeric shown s a with
    | .error _ => none
    | .ok t => some t
  | .item i => writeItem (untouchedLine w numeric shown) included i

/-- save_netlist: spice_file.py 133-148. The lines of the components stay as they were read. -/
def save (w : WordClass) (numeric : Str → Bool) (shown : PV → Str) (included : Str → Option Str) : List El → Option Str
  | [] => some []
  | e :: es => match writeEl w numeric shown included e, save w numeric shown included es with
    | some a, some b => some (a ++ b)
    | _, _ => none

/-- get_component_value: spice_subcircuit.py 474-490, 711-718; the first component of that reference in any case. `none` is the
ComponentNotFoundError; a component without value is not distinguished from it. -/
def getValue (ref : Str) : List El → Option Str
  | [] => none
  | .comp _ a :: es => if upper a.ref = upper ref then a.value else getValue ref es
  | .item _ :: es => getValue ref es

/-- set_component_value: spice_subcircuit.py 474-490, 651-678, spice_components.py 431-438. -/
def setValue (ref v : Str) : List El → Option (List El)
  | [] => none
  | .comp s a :: es => if upper a.ref = upper ref then some (.comp s { a with value := some v } :: es) else (setValue ref v es).map (El.comp s a :: ·)
  | .item i :: es => (setValue ref v es).map (El.item i :: ·)

/-- The element as Model.SpiceParam looks at it. -/
def asElem : El → Model.Netlist.Elem
  | .comp s _ => .comp (some s)
  | .item (.text s) => .text s
  | .item (.prim s) => .prim s
  | .item (.comp s) => .comp (some s)
  | .item (.ctrl s) => .ctrl (some s)
  | .item (.incl s) => .incl s
  | .item (.sub _) => .sub 0

/-- get_parameter: spice_subcircuit.py 573-587, the text of the value. `none` is the ParameterNotFoundError or another exception. -/
def getParameter (p : Str) (es : List El) : Option Str :=
  match Model.SpiceParam.findParam p (es.map asElem) with
  | .ok (some (_, m)) => some m.value
  | _ => none

/-- spice_subcircuit.py 632-634: only a .PARAM line is ever changed this way, and that is a Primitive. -/
def setLine (f : Str → Str) : El → El
  | .item (.prim s) => .item (.prim (f s))
  | e => e

/-- set_parameter: spice_subcircuit.py 589-648 with a value. -/
def setParameter (p v : Str) (es : List El) : Option (List El) :=
  match Model.SpiceParam.findParam p (es.map asElem) with
  | .error _ => none
  | .ok (some (i, m)) => some (es.modify i (setLine (fun s => Model.SpiceParam.insertSection s m.start m.stop v ++ ['\n'])))
  | .ok none => some (es.take (es.length - 2) ++ .item (.prim (Model.Netlist.paramLine p v)) :: es.drop (es.length - 2))

/-- What is done with the editor: set a value, set a parameter, or save the netlist and open the file again. -/
inductive Op where
  | set (ref v : Str)
  | param (p v : Str)
  | reopen
  deriving DecidableEq, Repr

def step (w : WordClass) (numeric : Str → Bool) (shown : PV → Str) (included : Str → Option Str) (es : List El) : Op → Option (List El)
  | .set r v => setValue r v es
  | .param p v => setParameter p v es
  | .reopen => (save w numeric shown included es).bind (openText w numeric shown)

def run (w : WordClass) (numeric : Str → Bool) (shown : PV → Str) (included : Str → Option Str) (es : List El) : List Op → Option (List El)
  | [] => some es
  | op :: ops => (step w numeric shown included es op).bind (fun es => run w numeric shown included es ops)

end Model.EditSave
