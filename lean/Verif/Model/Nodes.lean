import Verif.Model.CompLine
/-
Model of SpiceCircuit.get_all_nodes (spicelib/editor/spice_subcircuit.py 819-837) and of iterating over a circuit (515-531, 1113-1117).
The regular expressions of the component lines are those of Model/CompLine.
-/
namespace Model.Nodes
open Model.Regex Model.CompLine

abbrev Str := List Char

/-- `None[0]` (TypeError) or `''[0]` (IndexError) in get_line_command (73), and its SyntaxError (64-65). -/
inductive Err where | typeErr | indexErr | syntaxErr
  deriving DecidableEq, Repr

/-- An element of `netlist`: a text (a comment or blank line), another Primitive (an instruction), a component or instance with the text of
its line (`none`: a component that was created without text), a sub-circuit definition, a control section, an included file (`none`: it
could not be loaded). -/
inductive Elem where
  | text (s : Str)
  | prim (s : Str)
  | comp (obj : Option Str)
  | circuit (body : List Elem)
  | control
  | included (body : Option (List Elem))

/-- 832-836: the nodes of one line, `match.group('nodes').split()`; no regular expression or no match: nothing. -/
def lineNodes (w : WordClass) (obj : Str) : List Str :=
  match obj with
  | [] => []
  | c :: _ =>
    match regexFor w c with
    | none => []
    | some r =>
      match exec r obj with
      | none => []
      | some m => words [] (((m.get .nodes).map Prod.snd).getD [])

/-- 834-836: `if node not in circuit_nodes: circuit_nodes.append(node)` -/
def addNode (acc : List Str) (n : Str) : List Str := if acc.contains n then acc else acc ++ [n]

/-- 825-837: the loop; sub-circuits, included files and instructions are passed over. -/
def collect (w : WordClass) : List Elem → List Str → Except Err (List Str)
  | [], acc => .ok acc
  | .comp none :: _, _ => .error .typeErr
  | .comp (some []) :: _, _ => .error .indexErr
  | .comp (some (c :: t)) :: es, acc => collect w es ((lineNodes w (c :: t)).foldl addNode acc)
  | _ :: es, acc => collect w es acc

/-- 819-837, get_all_nodes. -/
def allNodes (w : WordClass) (netlist : List Elem) : Except Err (List Str) := collect w netlist []

/-- A component as the iteration delivers it: `SpiceComponent(self, line_no)` (531). The two positional arguments are neither a value nor a
net (primitives.py 90-113), so the object has no netlist, no text, no reference, no value and no ports. -/
structure Fresh where
  netlist : Option Nat
  obj : Option Str
  reference : Str
  value : Option Str
  deriving DecidableEq, Repr

def fresh : Fresh := ⟨none, none, [], none⟩

/-- 528-531 for a line of text: `get_line_command(line) in VALID_PREFIXES`; `prefixes` are the valid prefixes, `command` is get_line_command
(40-65; Model/Netlist). -/
def ofLine (command : Str → Option Str) (prefixes : List Str) (line : Str) : Except Err (List Fresh) :=
  match command line with
  | none => .error .syntaxErr
  | some c => .ok (if prefixes.contains c then [fresh] else [])

/-- 528-531 for a component: the command is the first character of its text (73). -/
def ofComp (prefixes : List Str) (obj : Option Str) : Except Err (List Fresh) :=
  match obj with
  | none => .error .typeErr
  | some [] => .error .indexErr
  | some (c :: _) => .ok (if prefixes.contains [c] then [fresh] else [])

mutual
/-- 515-531, `__iter__` of a circuit: everything it delivers when it is run to the end. -/
def iter (command : Str → Option Str) (prefixes : List Str) : List Elem → Except Err (List Fresh)
  | [] => .ok []
  | e :: es =>
    match iterOne command prefixes e with
    | .error x => .error x
    | .ok l =>
      match iter command prefixes es with
      | .error x => .error x
      | .ok r => .ok (l ++ r)
/-- The part of one element. -/
def iterOne (command : Str → Option Str) (prefixes : List Str) : Elem → Except Err (List Fresh)
  | .text s => ofLine command prefixes s
  | .prim s => ofLine command prefixes s
  | .comp obj => ofComp prefixes obj
  | .circuit body => iter command prefixes body
  | .control => .ok []
  | .included none => .ok []
  | .included (some body) => iter command prefixes body
end

end Model.Nodes
