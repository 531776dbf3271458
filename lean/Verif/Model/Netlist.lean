import Verif.Model.PyStr
import Verif.Model.Updates
/-
Model of the instructions of a netlist: spicelib/editor/spice_file.py (SpiceFile.add_instruction, remove_instruction,
remove_Xinstruction), spicelib/editor/spice_editor.py (blank netlists, control sections) and
spicelib/editor/spice_subcircuit.py (get_line_command, class_for_instruction, the insertion made by set_parameter).

Simplification: `upper()` changes ASCII letters and the letters ã ø ö.
-/
namespace Model.Netlist
open Model.PyStr
open Model.Updates (UpdateType)

abbrev Str := List Char

/-- Exceptions. -/
inductive Err where
  | permission | syntaxErr | attribute | runtime | value | index
  deriving DecidableEq, Repr

/-- editor/updates.py 7-11: UpdatePermission. -/
inductive Perm where
  | initializing | inform | deny
  deriving DecidableEq, Repr

/-- An element of `netlist`: a string (comments and blank lines), a Primitive, a SpiceComponent or SpiceCircuitInstance, a
ControlEditor, an IncludeFile, or a nested SpiceCircuit (its content plays no part here). All but the first and the last
are Primitives and have an `obj`, which is None (`none`) for objects made without a line. -/
inductive Elem where
  | text (s : Str)
  | prim (s : Str)
  | comp (obj : Option Str)
  | ctrl (obj : Option Str)
  | incl (s : Str)
  | sub (id : Nat)
  deriving DecidableEq, Repr

/-- `isinstance(line, Primitive)` and `line.obj`: the outer `none` is "not a Primitive". -/
def Elem.obj : Elem → Option (Option Str)
  | .text _ => none
  | .sub _ => none
  | .prim s => some (some s)
  | .incl s => some (some s)
  | .comp o => some o
  | .ctrl o => some o

/-- `ch.upper()` -/
def upChar (c : Char) : Char := if c = 'ã' then 'Ã' else if c = 'ø' then 'Ø' else if c = 'ö' then 'Ö' else c.toUpper

/-- spice_utils.py 157-270: VALID_PREFIXES. -/
def validPrefixes : List Char := "ABCDEFGHIJKLMNOPQRSTUVWXYZ@Ã¥€£Ø×Ö".toList

def isBlank (c : Char) : Bool := c = ' ' || c = '\t'
def endsWord (c : Char) : Bool := c = ' ' || c = '\t' || c = '\r' || c = '\n'

/-- spice_subcircuit.py 40-65: get_line_command of a string; `none` is the SyntaxError. -/
def lineCommand : Str → Option Str
  | [] => none
  | c :: cs =>
    if isBlank c then lineCommand cs
    else if upChar c ∈ validPrefixes then some [upChar c]
    else if c = '+' then some ['+']
    else if c ∈ "#;*\n\r".toList then some ['*']
    else if c = '.' then some (('.' :: cs.takeWhile (fun d => !endsWord d)).map upChar)
    else none

/-- spice_utils.py 24. -/
def uniqueCommands : List Str := [".AC".toList, ".DC".toList, ".TRAN".toList, ".NOISE".toList, ".TF".toList]

/-- spice_subcircuit.py 80-86: _is_unique_instruction of a string; `none` is the SyntaxError. -/
def isUnique (s : Str) : Option Bool := (lineCommand s).map (fun c => uniqueCommands.contains c)

/-- spice_file.py 45-46. -/
def withNewline (s : Str) : Str := if s.getLast? = some '\n' then s else s ++ ['\n']

/-- The editor: the permission, the netlist and the calls of add_update made on the journal so far
(base_subcircuit.py 53-59; the effect of these calls on the journal is Model.Updates.addUpdate). -/
structure Ed where
  perm : Perm
  netlist : List Elem
  calls : List (Str × Str × UpdateType)
  deriving DecidableEq, Repr

/-- `if permission == Inform: self.end_update("INSTRUCTION", text, type)` -/
def Ed.journal (ed : Ed) (text : Str) (k : UpdateType) : Ed :=
  if ed.perm = .inform then { ed with calls := ed.calls ++ [("INSTRUCTION".toList, text, k)] } else ed

/-- spice_file.py 51-60: the position of the first Primitive that is a simulation command. An `obj` which is None, or a
line that get_line_command does not understand, raises the SyntaxError. -/
def findUnique : List Elem → Except Err (Option Nat)
  | [] => .ok none
  | e :: es =>
    match e.obj with
    | none => match findUnique es with
      | .error x => .error x
      | .ok r => .ok (r.map (· + 1))
    | some none => .error .syntaxErr
    | some (some s) =>
      match isUnique s with
      | none => .error .syntaxErr
      | some true => .ok (some 0)
      | some false => match findUnique es with
        | .error x => .error x
        | .ok r => .ok (r.map (· + 1))

/-- spice_file.py 65-68 and 94-103: the position of the first Primitive with the same text apart from the white space around
it. `None.strip()` is an AttributeError. -/
def findText (ins : Str) : List Elem → Except Err (Option Nat)
  | [] => .ok none
  | e :: es =>
    match e.obj with
    | some none => .error .attribute
    | some (some s) =>
      if strip s = strip ins then .ok (some 0)
      else match findText ins es with
        | .error x => .error x
        | .ok r => .ok (r.map (· + 1))
    | none => match findText ins es with
      | .error x => .error x
      | .ok r => .ok (r.map (· + 1))

/-- spice_file.py 74-78: the first Primitive that starts with .backanno. `None.lower()` cannot be reached: the loop of 65-68
would have failed before. -/
def findBackanno : List Elem → Option Nat
  | [] => none
  | e :: es =>
    match e.obj with
    | some (some s) => if ".backanno".toList.isPrefixOf (lower s) then some 0 else (findBackanno es).map (· + 1)
    | _ => (findBackanno es).map (· + 1)

/-- spice_subcircuit.py 843-861: class_for_instruction. A ControlEditor gets its text as a positional argument, which
Primitive.__init__ (primitives.py 60-62) ignores: its obj is None. An instruction starting with X becomes a plain component
as well (855). -/
def classFor (ins cmd : Str) : Elem :=
  if cmd = ".CONTROL".toList then .ctrl none
  else if ".INC".toList.isPrefixOf cmd then .incl ins
  else if cmd.length = 1 ∧ ∀ c ∈ cmd, c ∈ validPrefixes then .comp (some ins)
  else if cmd.head? = some '.' then .prim ins
  else .text ins

/-- `netlist.insert(i, e)` with `i` counted from the start; negative indices that Python would count from the end are all
below the start of the list here and end up at 0, as with natural numbers. -/
def insertAt (i : Nat) (e : Elem) (l : List Elem) : List Elem := l.take i ++ e :: l.drop i

/-- spice_file.py 24-84: SpiceFile.add_instruction. Every exception is raised before anything is changed. -/
def addInstruction (ed : Ed) (instruction : Str) : Except Err Ed :=
  if ed.perm = .deny then .error .permission
  else
    let ins := withNewline instruction
    match lineCommand ins with
    | none => .error .syntaxErr
    | some cmd =>
      -- 49: _is_unique_instruction(cmd) applies get_line_command to the command itself
      match isUnique cmd with
      | none => .error .syntaxErr
      | some unique =>
        match (if unique then findUnique ed.netlist else .ok none) with
        | .error e => .error e
        | .ok (some i) =>                                                          -- 54-58
          .ok ({ ed with netlist := ed.netlist.set i (.prim ins) }.journal (strip ins) .updateInstruction)
        | .ok none =>
          if !unique && decide (cmd = ".PARAM".toList) then .error .runtime              -- 61-62
          else match findText ins ed.netlist with
            | .error e => .error e
            | .ok (some _) => .ok ed                                               -- 65-68
            | .ok none =>
              let line := (findBackanno ed.netlist).getD (ed.netlist.length - 1)
              .ok ({ ed with netlist := insertAt line (classFor ins cmd) ed.netlist }.journal (strip ins) .addInstruction)

/-- spice_file.py 97: the text recorded for a removal. -/
def logText (s : Str) : Str :=
  (strip s).flatMap (fun c => if c = '\r' then ['\\', 'r'] else if c = '\n' then ['\\', 'n'] else [c])

/-- spice_file.py 86-106: SpiceFile.remove_instruction. -/
def removeInstruction (ed : Ed) (instruction : Str) : Except Err (Ed × Bool) :=
  if ed.perm = .deny then .error .permission
  else match findText instruction ed.netlist with
    | .error e => .error e
    | .ok none => .ok (ed, false)
    | .ok (some i) => .ok ({ ed with netlist := ed.netlist.eraseIdx i }.journal (logText instruction) .deleteInstruction, true)

/-- The string tested by remove_Xinstruction (spice_file.py 118-121): a string, or the obj of a Primitive when it is one. -/
def Elem.str : Elem → Option Str
  | .text s => some s
  | .sub _ => none
  | .prim s => some s
  | .incl s => some s
  | .comp o => o
  | .ctrl o => o

/-- spice_file.py 117-128: the loop; `p` is `regex.match`. The kept elements and the removed strings. -/
def dropMatching (p : Str → Bool) : List Elem → List Elem × List Str
  | [] => ([], [])
  | e :: es =>
    let (k, r) := dropMatching p es
    match e.str with
    | some s => if p s then (k, s :: r) else (e :: k, r)
    | none => (e :: k, r)

/-- spice_file.py 108-133: SpiceFile.remove_Xinstruction. -/
def removeX (ed : Ed) (p : Str → Bool) : Except Err (Ed × Bool) :=
  if ed.perm = .deny then .error .permission
  else
    let (kept, removed) := dropMatching p ed.netlist
    .ok (removed.foldl (fun e s => e.journal (strip s) .deleteInstruction) { ed with netlist := kept }, !removed.isEmpty)

/-- spice_subcircuit.py 641-648: the line added by set_parameter when the parameter is not in the netlist. -/
def paramLine (name value : Str) : Str := ".PARAM ".toList ++ name ++ '=' :: value ++ "  ; Batch instruction\n".toList

/-- spice_subcircuit.py 589-648: set_parameter for a parameter that is not in the netlist, with a value given as a string
(journal left out). -/
def addParameter (netlist : List Elem) (name value : Str) : List Elem :=
  insertAt (netlist.length - 2) (.prim (paramLine name value)) netlist

/-- spice_file.py 177-178 and spice_editor.py 95-96: the netlist of SpiceEditor(create_blank=True). -/
def blank : List Elem := [.text "* netlist generated from spicelib".toList, .prim ".END".toList]

/-- spice_subcircuit.py 222-245: what write_lines writes for an element, for netlists without sub-circuits, includes and
components whose attributes were changed (an unchanged component is written as its line, spice_components.py 381-386).
`none` is an exception: None cannot be written. -/
def writeElem : Elem → Option Str
  | .text s => some s
  | .prim s => some (strip s ++ ['\n'])
  | .comp o => o
  | .ctrl o => o
  | .incl _ => none
  | .sub _ => none

def writeLines : List Elem → Option Str
  | [] => some []
  | e :: es => match writeElem e, writeLines es with
    | some a, some b => some (a ++ b)
    | _, _ => none

end Model.Netlist
