import Verif.Model.Netlist
import Verif.Model.ParamRegex
/-
Parameters of a netlist: spicelib/editor/spice_subcircuit.py 247-296 (_get_parameter_named, get_all_parameter_names), 573-648
(get_parameter, set_parameter) and spice_components.py 201-219 (_insert_section).

Simplifications: included files have no editor of their own here (their parameters are looked up first, 266-272); a value is the
text handed to _insert_section; get_parameter gives the text before try_value turns it into a number.
-/
namespace Model.SpiceParam
open Model.PyStr Model.Netlist
open Model.ParamRegex (Match findIter named sepValue? sorted)
open Model.Updates (UpdateType)

/-- spice_components.py 201-219 -/
def insertSection (line : Str) (start stop : Nat) (section_ : Str) : Str :=
  if line = [] then [] else
  if section_ = [] then line else
  let a := strip section_
  let b := if 0 < start ∧ line[start - 1]? ≠ some ' ' then ' ' :: a else a
  let c := if stop < line.length ∧ line[stop]? ≠ some ' ' ∧ 1 < b.length then b ++ [' '] else b
  strip (line.take start ++ c ++ line.drop stop)

/-- The text of an element get_line_command and finditer work on (255-277); `none`: the element is passed over. -/
inductive Look where
  | skip
  | fail              -- get_line_command(None) raises
  | line (s : Str)
  deriving DecidableEq

def look : Elem → Look
  | .sub _ => .skip
  | .ctrl _ => .skip
  | .incl _ => .skip
  | .text s => .line s
  | .prim s => .line s
  | .comp (some s) => .line s
  | .comp none => .fail

/-- spice_subcircuit.py 247-281: position of the line and the match. -/
def findParam (p : Str) : List Elem → Except Err (Option (Nat × Match))
  | [] => .ok none
  | e :: l =>
    let rest := match findParam p l with
      | .error x => .error x
      | .ok r => .ok (r.map (fun q => (q.1 + 1, q.2)))
    match look e with
    | .skip => rest
    | .fail => .error .syntaxErr
    | .line s => match lineCommand s with
      | none => .error .syntaxErr
      | some cmd =>
        if cmd = ".PARAM".toList then
          match named p (findIter s) with
          | some m => .ok (some (0, m))
          | none => rest
        else rest

/-- spice_subcircuit.py 573-587: `.ok none` is the ParameterNotFoundError. -/
def getParam (ed : Ed) (p : Str) : Except Err (Option Str) :=
  match findParam p ed.netlist with
  | .error x => .error x
  | .ok r => .ok (r.map (fun q => q.2.value))

/-- netlist[param_line]._obj = … when it is a Primitive (632-634) -/
def setObj (f : Str → Str) : Elem → Elem
  | .prim s => .prim (f s)
  | .comp o => .comp (o.map f)
  | .ctrl o => .ctrl (o.map f)
  | .incl s => .incl (f s)
  | e => e

/-- self.end_update(param, value, type), 637 and 648 -/
def record (ed : Ed) (p v : Str) (k : UpdateType) : Ed :=
  if ed.perm = .inform then { ed with calls := ed.calls ++ [(p, v, k)] } else ed

/-- spice_subcircuit.py 589-648 with a value: the first definition is replaced, or a line is inserted before the last two. -/
def setParam (ed : Ed) (p v : Str) : Except Err Ed :=
  if ed.perm = .deny then .error .value
  else match findParam p ed.netlist with
    | .error x => .error x
    | .ok (some (i, m)) =>
      .ok (record { ed with netlist := ed.netlist.modify i (setObj (fun s => insertSection s m.start m.stop v ++ ['\n'])) } p v .updateParameter)
    | .ok none => .ok (record { ed with netlist := addParameter ed.netlist p v } p v .addParameter)

/-- re.sub(PARAM_REGEX(param), '', text, flags=re.IGNORECASE) (627): the name is looked for anywhere, also at the end of a longer
word; `skip` as in Model.ParamRegex.scan. Names are taken to contain no character that is special in a regular expression. -/
def subAll (p : Str) : Nat → Str → Str
  | _, [] => []
  | k + 1, _ :: cs => subAll p k cs
  | 0, c :: cs =>
    if (upper p).isPrefixOf (upper (c :: cs)) then
      match sepValue? ((c :: cs).drop p.length) with
      | none => c :: subAll p 0 cs
      | some (a, v, _) => subAll p (p.length + a.length + v.length - 1) cs
    else c :: subAll p 0 cs

/-- 631 -/
def removedLine : Str := "* SpiceEditor removed empty .PARAM line\n".toList

/-- spice_subcircuit.py 622-633 with value None on an element that is a Primitive. -/
def removeFrom (p : Str) : Elem → Elem
  | .prim s =>
    let s' := subAll p 0 s
    if findIter s' = [] then .text removedLine else .prim s'
  | e => e

/-- spice_subcircuit.py 589-648 with the value None. A parameter that is not there is added with the value None (641-648). -/
def delParam (ed : Ed) (p : Str) : Except Err Ed :=
  if ed.perm = .deny then .error .value
  else match findParam p ed.netlist with
    | .error x => .error x
    | .ok (some (i, _)) => .ok (record { ed with netlist := ed.netlist.modify i (removeFrom p) } p "None".toList .deleteParameter)
    | .ok none => .ok (record { ed with netlist := addParameter ed.netlist p "None".toList } p "None".toList .addParameter)

/-- The same for get_all_parameter_names (286-293), where a control section is not passed over but looked at as a Primitive. -/
def lookNames : Elem → Look
  | .ctrl (some s) => .line s
  | .ctrl none => .fail
  | e => look e

/-- spice_subcircuit.py 283-300: the names in file order. -/
def lineNames : List Elem → Except Err (List Str)
  | [] => .ok []
  | e :: l =>
    match lookNames e with
    | .fail => .error .syntaxErr
    | .skip => lineNames l
    | .line s => match lineCommand s with
      | none => .error .syntaxErr
      | some cmd => match lineNames l with
        | .error x => .error x
        | .ok r => .ok ((if cmd = ".PARAM".toList then (findIter s).map (fun m => upper m.name) else []) ++ r)

/-- spice_subcircuit.py 283-300: get_all_parameter_names -/
def allNames (ed : Ed) : Except Err (List Str) := (lineNames ed.netlist).map sorted

end Model.SpiceParam
