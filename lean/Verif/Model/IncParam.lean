import Verif.Model.SpiceParam
/-
Parameters of a netlist that includes other files: spicelib/editor/spice_subcircuit.py 247-300 and 589-648, with the IncludeFile
objects of 1084-1117. An IncludeFile that found its file holds a SpiceEditor of its own, whose netlist is searched where the include
line stands (263-270, 287-291); the element found there is changed in place (`netlist[param_line]`, 622-637), and write_lines writes the
included netlist in the place of the include line (228-233).

Simplifications: those of Model.SpiceParam. An include whose file was not found is an element without editor (`own (.incl line)`).
-/
namespace Model.IncParam
open Model.PyStr Model.Netlist Model.SpiceParam
open Model.ParamRegex (Match findIter named sorted)
open Model.Updates (UpdateType)

/-- An element of `netlist`: one without an editor of its own, or an include with the netlist of the file. -/
inductive Tree where
  | own (e : Elem)
  | file (content : List Tree)

mutual
/-- The elements in the order in which write_lines writes them (222-244). -/
def flat1 : Tree → List Elem
  | .own e => [e]
  | .file l => flat l
def flat : List Tree → List Elem
  | [] => []
  | t :: l => flat1 t ++ flat l
end

/-- What `_get_parameter_named` returns: the position of the line and the list it is in (as the positions of the includes that lead
there), and the match. -/
abbrev Found := Option (List Nat × Match)

/-- `line_no += 1` for what is found later in the same list -/
def later (r : Except Err Found) : Except Err Found :=
  match r with
  | .error x => .error x
  | .ok none => .ok none
  | .ok (some (i :: path, m)) => .ok (some ((i + 1) :: path, m))
  | .ok (some ([], m)) => .ok (some ([], m))

/-- found in the file included at this position -/
def inside (r : List Nat × Match) : List Nat × Match := (0 :: r.1, r.2)

mutual
/-- spice_subcircuit.py 256-277: one element; `.ok none`: go on. -/
def find1 (p : Str) : Tree → Except Err Found
  | .file l => (findT p l).map (Option.map inside)
  | .own e => match look e with
    | .skip => .ok none
    | .fail => .error .syntaxErr
    | .line s => match lineCommand s with
      | none => .error .syntaxErr
      | some cmd =>
        if cmd = ".PARAM".toList then .ok ((named p (findIter s)).map (fun m => ([0], m))) else .ok none
/-- spice_subcircuit.py 247-281 -/
def findT (p : Str) : List Tree → Except Err Found
  | [] => .ok none
  | t :: l => match find1 p t with
    | .error x => .error x
    | .ok (some r) => .ok (some r)
    | .ok none => later (findT p l)
end

/-- spice_subcircuit.py 573-587 -/
def getT (ts : List Tree) (p : Str) : Except Err (Option Str) := (findT p ts).map (Option.map (fun r => r.2.value))

mutual
/-- `netlist[param_line] = f(netlist[param_line])`; an element that is no include ends the path. -/
def mod1 (f : Elem → Elem) : Tree → List Nat → Tree
  | .own e, _ => .own (f e)
  | .file c, path => .file (modL f c path)
def modL (f : Elem → Elem) : List Tree → List Nat → List Tree
  | [], _ => []
  | t :: l, [] => t :: l
  | t :: l, 0 :: path => mod1 f t path :: l
  | t :: l, (i + 1) :: path => t :: modL f l (i :: path)
end

/-- `netlist[param_line] = f(netlist[param_line])` at the place found -/
def modifyT (f : Elem → Elem) (path : List Nat) (ts : List Tree) : List Tree := modL f ts path

/-- An editor: its permission, its netlist, and the calls of end_update. -/
structure TEd where
  perm : Perm
  netlist : List Tree
  calls : List (Str × Str × UpdateType)

/-- self.end_update (637, 648): of the editor the call was made on, not of the one of the included file. -/
def recordT (ed : TEd) (p v : Str) (k : UpdateType) : TEd :=
  if ed.perm = .inform then { ed with calls := ed.calls ++ [(p, v, k)] } else ed

/-- `self.netlist.insert(i, t)` (644) -/
def insertTree (i : Nat) (t : Tree) (l : List Tree) : List Tree := l.take i ++ t :: l.drop i

/-- spice_subcircuit.py 589-648 with a value -/
def setT (ed : TEd) (p v : Str) : Except Err TEd :=
  if ed.perm = .deny then .error .value
  else match findT p ed.netlist with
    | .error x => .error x
    | .ok (some (path, m)) =>
      .ok (recordT { ed with netlist := modifyT (setObj (fun s => insertSection s m.start m.stop v ++ ['\n'])) path ed.netlist } p v .updateParameter)
    | .ok none =>
      .ok (recordT { ed with netlist := insertTree (ed.netlist.length - 2) (.own (.prim (paramLine p v))) ed.netlist } p v .addParameter)

/-- spice_subcircuit.py 589-648 with the value None -/
def delT (ed : TEd) (p : Str) : Except Err TEd :=
  if ed.perm = .deny then .error .value
  else match findT p ed.netlist with
    | .error x => .error x
    | .ok (some (path, _)) => .ok (recordT { ed with netlist := modifyT (removeFrom p) path ed.netlist } p "None".toList .deleteParameter)
    | .ok none =>
      .ok (recordT { ed with netlist := insertTree (ed.netlist.length - 2) (.own (.prim (paramLine p "None".toList))) ed.netlist } p "None".toList .addParameter)

mutual
/-- spice_subcircuit.py 286-299: the names one element contributes; those of an included file come sorted (300). -/
def names1 : Tree → Except Err (List Str)
  | .file l => (namesT l).map sorted
  | .own e => match lookNames e with
    | .fail => .error .syntaxErr
    | .skip => .ok []
    | .line s => match lineCommand s with
      | none => .error .syntaxErr
      | some cmd => .ok (if cmd = ".PARAM".toList then (findIter s).map (fun m => upper m.name) else [])
def namesT : List Tree → Except Err (List Str)
  | [] => .ok []
  | t :: l => match names1 t with
    | .error x => .error x
    | .ok a => match namesT l with
      | .error x => .error x
      | .ok b => .ok (a ++ b)
end

/-- spice_subcircuit.py 283-300: get_all_parameter_names -/
def allNamesT (ed : TEd) : Except Err (List Str) := (namesT ed.netlist).map sorted

end Model.IncParam
