import Verif.Model.NetTree
/-
Control sections of a netlist: spicelib/editor/spice_editor.py 134-188 (get_control_sections, add_control_section, remove_control_section).
-/
namespace Model.Control
open Model.PyStr
open Model.Netlist

/-- get_control_sections (spice_editor.py 134-146): the contents, in order; none is a ControlEditor whose obj is None. -/
def getControls : List Elem → List (Option Str)
  | [] => []
  | .ctrl o :: es => o :: getControls es
  | _ :: es => getControls es

/-- `s.endswith(t)` -/
def endsWith (t s : Str) : Bool := t.reverse.isPrefixOf s.reverse

/-- add_control_section (spice_editor.py 148-161) -/
def addControl (ed : Ed) (instruction : Str) : Except Err Ed :=
  let ins := strip instruction
  if !(".CONTROL".toList.isPrefixOf (upper ins)) || !(endsWith ".ENDC".toList (upper ins)) then .error .value
  else addInstruction ed ins

/-- The position of the control section with this number (spice_editor.py 176-187), and its content. -/
def findControl : Nat → List Elem → Option (Nat × Option Str)
  | _, [] => none
  | 0, .ctrl o :: _ => some (0, o)
  | k + 1, .ctrl _ :: es => (findControl k es).map (fun r => (r.1 + 1, r.2))
  | k, _ :: es => (findControl k es).map (fun r => (r.1 + 1, r.2))

/-- `content.replace("\r", "\\r").replace("\n", "\\n")` (spice_editor.py 180) -/
def escaped (s : Str) : Str := s.flatMap (fun c => if c = '\r' then ['\\', 'r'] else if c = '\n' then ['\\', 'n'] else [c])

/-- remove_control_section (spice_editor.py 163-188): what is returned or raised, and the editor afterwards. The section is deleted before its text is
needed (179-180). -/
def removeControl (ed : Ed) (index : Int) : Except Err Bool × Ed :=
  if ed.perm = .deny then (.error .permission, ed)
  else if index < 0 then (.error .index, ed)
  else match findControl index.toNat ed.netlist with
    | none => (.ok false, ed)
    | some (nr, none) => (.error .attribute, { ed with netlist := ed.netlist.eraseIdx nr })
    | some (nr, some s) => (.ok true, { ed with netlist := ed.netlist.eraseIdx nr }.journal (escaped s) .deleteInstruction)

/-- The elements of a loaded netlist (Model/NetTree) as elements of the editor. -/
def ofItem : Model.NetTree.Item → Elem
  | .text s => .text s
  | .prim s => .prim s
  | .comp s => .comp (some s)
  | .ctrl s => .ctrl (some s)
  | .incl s => .incl s
  | .sub _ => .sub 0

end Model.Control
