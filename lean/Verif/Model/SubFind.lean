import Verif.Model.NetTree
import Verif.Model.Lines
import Verif.Model.LogFile
/-
Which definition a sub-circuit name stands for: spicelib/editor/spice_subcircuit.py (SpiceCircuit.get_subcircuit_named, name,
find_subckt_in_lib, find_subckt_in_included_libs), with the expressions of spicelib/editor/spice_utils.py 56-61.

Simplifications: the file that find_library gives for a name (983-999; the search itself is Model/Search) is a parameter, with the text it
has; letter case is ASCII; of the special characters of regular expressions only the dot is modelled in the name of a sub-circuit.
-/
namespace Model.SubFind
open Model.PyStr (isSpace)
open Model.NetTree (Item addLines)
open Model.Regex
open Model.CompLine (lit sp dot WordClass)
open Model.LogFile (ilits)

/-- The name as a regular expression, re.IGNORECASE (spice_subcircuit.py 960). -/
def nameRe : Str → Re
  | [] => .nil
  | c :: cs => .seq (.cls (fun d => if c = '.' then d ≠ '\n' else d.toUpper = c.toUpper)) (nameRe cs)

/-- `^.SUBCKT\s+`: spice_utils.py 56, 57; the dot stands for any character. -/
def clauseRe (r : Re) : Re := .seq dot (ilits "SUBCKT".toList (.seq (plus sp) r))

/-- spice_subcircuit.py 960 -/
def findRe (name : Str) : Re := clauseRe (nameRe name)

inductive Err where
  | net (e : Model.NetTree.Err)
  | braces                        -- MissingExpectedClauseError of separate_lines
  deriving DecidableEq, Repr

/-- The loop of find_subckt_in_lib (969-981): `raised` says that reading the lines ends with an exception. -/
def scan (name : Str) (raised : Bool) : List Str → Except Err (Option (List Item))
  | [] => if raised then .error .braces else .ok none
  | l :: ls =>
    if (exec (findRe name) l).isSome then
      match addLines [.prim l] [] none ls with
      | .error e => .error (.net e)
      | .ok r => if r.finished then .ok (some r.items) else if raised then .error .braces else .ok none
    else scan name raised ls

/-- find_subckt_in_lib (947-981); no text: no encoding was found (962-965). -/
def findInLib (name : Str) : Option Str → Except Err (Option (List Item))
  | none => .ok none
  | some text => let o := Model.Lines.separateLines text
    scan name o.raised o.lines

/-- lib_inc_regex (spice_utils.py 58-61); the group `filename` is called value here. -/
def libRe : Re :=
  .seq (lit '.') (.seq (.alt (ilits "LIB".toList .nil) (.seq (ilits "INC".toList .nil) (opt (ilits "LUDE".toList .nil))))
    (.seq (plus sp) (.seq (.grp .value (.seq dot (.lazy dot))) (.seq (.star sp)
      (.seq (opt (.seq (.cls (fun c => c = ';' || c = '*')) (.star dot))) .eol)))))

/-- The file name of a .LIB or .INCLUDE line (1017-1019). -/
def libName (line : Str) : Option Str := ((exec libRe line).bind (fun m => m.get .value)).map Prod.snd

/-- subckt_regex (spice_utils.py 57); the group `name` is called designator here. -/
def headRe (w : WordClass) : Re := clauseRe (.grp .designator (plus (.cls (fun c => w.word c || c = '.'))))

/-- The text of an element of a sub-circuit that `name` looks at (396-399); a nested sub-circuit is not a text (TypeError, not modelled: the
first element is the .SUBCKT line). -/
def itemText : Item → Str
  | .text s => s | .prim s => s | .comp s => s | .ctrl s => s | .incl s => s | .sub _ => []

/-- SpiceCircuit.name (390-404): the first element that is a .SUBCKT line; none: the name of the netlist file or `Netlist`. -/
def nameOf (w : WordClass) : List Item → Option Str
  | [] => none
  | i :: is => match (exec (headRe w) (itemText i)).bind (fun m => m.get .designator) with
    | some n => some n.2
    | none => nameOf w is

/-- An element of a circuit, for the search: a sub-circuit, an included file (with its text line, whether it was loaded, its directory and
its elements), another element with its text, or a control section. -/
inductive Elem where
  | circ (items : List Item)
  | incl (line : Str) (loaded : Bool) (dir : Str) (file : List Elem)
  | text (s : Str)
  | ctrl

/-- The line that find_subckt_in_included_libs looks at (1011-1016). -/
def Elem.line? : Elem → Option Str
  | .circ _ => none
  | .incl l _ _ _ => some l
  | .text s => some s
  | .ctrl => none

/-- The libraries: for the directory of a netlist file and a name, whether find_library finds a file, and its text. -/
abbrev Libs := Str → Str → Option (Option Str)

/-- find_subckt_in_included_libs of an outermost circuit (1001-1027, 1031-1032) -/
def findLibs (libs : Libs) (name dir : Str) : List Elem → Except Err (Option (List Item))
  | [] => .ok none
  | e :: es =>
    match (e.line?.bind libName).bind (libs dir) with
    | none => findLibs libs name dir es
    | some text => match findInLib name text with
      | .error x => .error x
      | .ok (some r) => .ok (some r)
      | .ok none => findLibs libs name dir es

mutual
/-- One element of get_subcircuit_named (325-334). -/
def findElem (w : WordClass) (libs : Libs) (name : Str) : Elem → Except Err (Option (List Item))
  | .circ items => .ok (if nameOf w items = some name then some items else none)
  | .incl _ true dir file =>
    match findElems w libs name file with
    | .error x => .error x
    | .ok (some r) => .ok (some r)
    | .ok none => findLibs libs name dir file
  | .incl _ false _ _ => .ok none
  | .text _ => .ok none
  | .ctrl => .ok none
/-- The loop of get_subcircuit_named (325-334). -/
def findElems (w : WordClass) (libs : Libs) (name : Str) : List Elem → Except Err (Option (List Item))
  | [] => .ok none
  | e :: es => match findElem w libs name e with
    | .error x => .error x
    | .ok (some r) => .ok (some r)
    | .ok none => findElems w libs name es
end

/-- get_subcircuit_named (316-337) of the innermost of nested circuits: `scopes` lists the circuits, the innermost first; `dir` is the
directory of the netlist file. -/
def findNamed (w : WordClass) (libs : Libs) (name dir : Str) : List (List Elem) → Except Err (Option (List Item))
  | [] => .ok none
  | [top] => match findElems w libs name top with
    | .error x => .error x
    | .ok (some r) => .ok (some r)
    | .ok none => findLibs libs name dir top
  | c :: d :: cs => match findElems w libs name c with
    | .error x => .error x
    | .ok (some r) => .ok (some r)
    | .ok none => findNamed w libs name dir (d :: cs)

end Model.SubFind
