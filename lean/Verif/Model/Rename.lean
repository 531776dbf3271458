import Verif.Model.SubFind
import Verif.Model.SpiceParam
/-
The private copy of a sub-circuit definition: spicelib/editor/spice_subcircuit.py 362-388 (clone), 390-405 (name; Model/SubFind), 407-450
(setname), and spice_subcircuit_instance.py 51-63, 88-99 (the name of the copy and the new value of the instance).

Simplification: components are kept as their line (the copy of a component has the same line and attributes, primitives.py 308-315).
-/
namespace Model.Rename
open Model.NetTree (Item)
open Model.Netlist (Str lineCommand)
open Model.CompLine (WordClass)
open Model.Regex (exec)
open Model.SubFind (headRe itemText)

inductive Err where
  | missing       -- MissingExpectedClauseError
  | typeErr       -- subckt_regex.search on a nested sub-circuit
  | syntaxErr     -- get_line_command
  deriving DecidableEq, Repr

/-- spice_subcircuit.py 418-432: the .SUBCKT line becomes a string with the new name; with the elements before it and after it. -/
def renameHead (w : WordClass) (new : Str) : List Item → Except Err (List Item × List Item)
  | [] => .error .missing
  | .sub _ :: _ => .error .typeErr
  | i :: is =>
    match (exec (headRe w) (itemText i)).bind (fun m => m.get .designator) with
    | some (start, name) =>
      .ok ([.text (Model.SpiceParam.insertSection (itemText i) start (start + name.length) new ++ ['\n'])], is)
    | none =>
      match renameHead w new is with
      | .ok (a, b) => .ok (i :: a, b)
      | .error e => .error e

/-- The text of an element that is a Primitive (primitives.py 55, 86, spice_subcircuit.py 1047, 1084). -/
def primText : Item → Option Str
  | .text _ => none
  | .sub _ => none
  | i => some (itemText i)

/-- `line._obj = '.ENDS ' + new_name + END_LINE_TERM`: the object keeps its class. -/
def setText (s : Str) : Item → Item
  | .prim _ => .prim s | .comp _ => .comp s | .ctrl _ => .ctrl s | .incl _ => .incl s
  | i => i

/-- spice_subcircuit.py 435-443: the first .ENDS line. -/
def renameEnds (new : Str) : List Item → Except Err (List Item)
  | [] => .error .missing
  | i :: is =>
    match primText i with
    | none => (match renameEnds new is with | .ok l => .ok (i :: l) | .error e => .error e)
    | some s =>
      match lineCommand s with
      | none => .error .syntaxErr
      | some cmd =>
        if cmd = ".ENDS".toList then .ok (setText (".ENDS ".toList ++ new ++ ['\n']) i :: is)
        else match renameEnds new is with | .ok l => .ok (i :: l) | .error e => .error e

/-- spice_subcircuit.py 407-450 -/
def setname (w : WordClass) (new : Str) (items : List Item) : Except Err (List Item) :=
  if items.isEmpty then
    .ok [.text "* SpiceEditor Created this sub-circuit".toList, .prim (".SUBCKT ".toList ++ new ++ ['\n']), .prim (".ENDS ".toList ++ new ++ ['\n'])]
  else match renameHead w new items with
    | .error e => .error e
    | .ok (a, b) => match renameEnds new b with
      | .error e => .error e
      | .ok l => .ok (a ++ l)

/-- 372, 382 -/
def opening : Item := .text "***** SpiceEditor Manipulated this sub-circuit ****\n".toList
def closing : Item := .text "***** ENDS SpiceEditor ****\n".toList

mutual
/-- 373-381: control sections and included files become plain Primitives. -/
def cloneItem : Item → Item
  | .sub l => .sub (opening :: cloneItems l ++ [closing])
  | .ctrl s => .prim s
  | .incl s => .prim s
  | i => i
def cloneItems : List Item → List Item
  | [] => []
  | i :: is => cloneItem i :: cloneItems is
end

/-- spice_subcircuit.py 362-388 with a new name. -/
def clone (w : WordClass) (new : Str) (items : List Item) : Except Err (List Item) := setname w new (opening :: cloneItems items ++ [closing])

/-- The name of the copy (spice_subcircuit_instance.py 61). -/
def copyName (value ref : Str) : Str := value ++ ['_'] ++ ref

/-- The first update of an instance (spice_subcircuit_instance.py 88-99): the copy, and the new value of the instance. `fallback` is the name when no
.SUBCKT line is found (402-404). -/
def firstUpdate (w : WordClass) (fallback value ref : Str) (items : List Item) : Except Err (List Item × Str) :=
  match clone w (copyName value ref) items with
  | .error e => .error e
  | .ok c => .ok (c, (Model.SubFind.nameOf w c).getD fallback)

end Model.Rename
