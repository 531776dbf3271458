import Verif.Model.Netlist
/-
Model of loading and saving netlists: spicelib/editor/spice_subcircuit.py (SpiceCircuit._add_lines, write_lines,
ControlEditor), spicelib/editor/spice_file.py (reset_netlist) and spicelib/editor/spice_editor.py (reset_netlist).

Components are kept as their line; what SpiceComponent.rewrite_lines writes for an untouched component is a parameter
(`untouched`) of the writer, as is what is written for an included file.
-/
namespace Model.NetTree
open Model.PyStr
open Model.Netlist (Str lineCommand validPrefixes)

/-- An element of `netlist`. -/
inductive Item where
  | text (s : Str)      -- comments and blank lines, kept as strings
  | prim (s : Str)      -- Primitive
  | comp (s : Str)      -- SpiceComponent or SpiceCircuitInstance
  | ctrl (s : Str)      -- ControlEditor
  | incl (s : Str)      -- IncludeFile
  | sub (l : List Item) -- SpiceCircuit
  deriving Repr

inductive Err where
  | syntaxErr   -- get_line_command
  | assertion   -- 201
  | typeErr     -- 203 for a SpiceCircuit
  deriving DecidableEq, Repr

/-- `netlist[-1] += line` (203). Strings are replaced by the longer string, Primitives change in place
(primitives.py 67-69), a SpiceCircuit does not support the operation. -/
def appendTo (line : Str) : List Item → Except Err (List Item)
  | [] => .error .assertion
  | [.text s] => .ok [.text (s ++ line)]
  | [.prim s] => .ok [.prim (s ++ line)]
  | [.comp s] => .ok [.comp (s ++ line)]
  | [.ctrl s] => .ok [.ctrl (s ++ line)]
  | [.incl s] => .ok [.incl (s ++ line)]
  | [.sub _] => .error .typeErr
  | x :: y :: xs => match appendTo line (y :: xs) with
    | .error e => .error e
    | .ok l => .ok (x :: l)

/-- What a line is for _add_lines (178-218). -/
inductive Kind where
  | subckt | control | incl | plus | comp | text | closing | other
  deriving DecidableEq, Repr

def kind (cmd : Str) : Kind :=
  if cmd = ".SUBCKT".toList then .subckt
  else if cmd = ".CONTROL".toList then .control
  else if ".INC".toList.isPrefixOf cmd then .incl
  else if cmd = ['+'] then .plus
  else if cmd.length = 1 ∧ ∀ c ∈ cmd, c ∈ validPrefixes then .comp
  else if cmd = ['*'] then .text
  else if ".END".toList.isPrefixOf cmd then .closing
  else .other

/-- `line.strip().upper().startswith(".ENDC")` (1057) -/
def endsControl (line : Str) : Bool := ".ENDC".toList.isPrefixOf (upper (strip line))

/-- The result of _add_lines on the outermost circuit: whether a closing line was found, its elements and the lines left in
the iterator. -/
structure Loaded where
  finished : Bool
  items : List Item
  rest : List Str
  deriving Repr

/-- spice_subcircuit.py 170-218 and 1051-1059. The recursion of _add_lines is an explicit stack: `open_` holds the elements
collected so far (in reverse) by the innermost circuit and by those around it; `ctl` is the text of the control section being
read. When the lines run out, all the circuits and the control section that are open return False and are dropped, and the
outermost circuit keeps what it has. -/
def addLines (open_ : List Item) (outer : List (List Item)) (ctl : Option Str) : List Str → Except Err Loaded
  | [] => .ok ⟨false, ((open_ :: outer).getLast (by simp)).reverse, []⟩
  | line :: rest =>
    match ctl with
    | some s =>                                                                      -- 1055-1058
      let s' := s ++ rstrip line ++ ['\n']
      if endsControl line then addLines (.ctrl s' :: open_) outer none rest
      else addLines open_ outer (some s') rest
    | none =>
      match lineCommand line with
      | none => .error .syntaxErr
      | some cmd =>
        match kind cmd with
        | .subckt => addLines [.prim line] (open_ :: outer) none rest                 -- 178-187
        | .control => addLines open_ outer (some (rstrip line ++ ['\n'])) rest        -- 188-195, 1054
        | .incl => addLines (.incl line :: open_) outer none rest                    -- 196-199
        | .plus => match appendTo line open_.reverse with                            -- 200-203
          | .error e => .error e
          | .ok l => addLines l.reverse outer none rest
        | .comp => addLines (.comp line :: open_) outer none rest                    -- 204-210
        | .text => addLines (.text line :: open_) outer none rest                    -- 211-213
        | .other => addLines (.prim line :: open_) outer none rest                   -- 214-216
        | .closing => match outer with                                               -- 214-219
          | [] => .ok ⟨true, (Item.prim line :: open_).reverse, rest⟩
          | o :: os => addLines (.sub (Item.prim line :: open_).reverse :: o) os none rest

/-- spice_file.py 185-192: of the lines after the end only the comments are kept. -/
def trailing : List Str → Except Err (List Item)
  | [] => .ok []
  | line :: rest =>
    match lineCommand line with
    | none => .error .syntaxErr
    | some cmd => match trailing rest with
      | .error e => .error e
      | .ok l => .ok (if cmd = ['*'] then .text line :: l else l)

/-- spice_file.py 178-198 and spice_editor.py 94-99: loading a file that exists, given its logical lines. A netlist without
.END raises the SyntaxError, an included file does not. -/
def load (isInclude : Bool) (lines : List Str) : Except Err (List Item) :=
  match addLines [] [] none lines with
  | .error e => .error e
  | .ok r =>
    match trailing r.rest with
    | .error e => .error e
    | .ok t => if r.finished || isInclude then .ok (r.items ++ t) else .error .syntaxErr

mutual
/-- spice_subcircuit.py 220-245 and 1061-1064: write_lines of a netlist in which no sub-circuit was modified through an
instance. `none` is an exception. -/
def writeItem (untouched included : Str → Option Str) : Item → Option Str
  | .text s => some s
  | .prim s => some (strip s ++ ['\n'])
  | .comp s => untouched s
  | .ctrl s => some s
  | .incl s => included s
  | .sub l => writeItems untouched included l
def writeItems (untouched included : Str → Option Str) : List Item → Option Str
  | [] => some []
  | i :: is => match writeItem untouched included i, writeItems untouched included is with
    | some a, some b => some (a ++ b)
    | _, _ => none
end

end Model.NetTree
