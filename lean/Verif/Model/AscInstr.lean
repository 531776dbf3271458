import Verif.Model.Asc
/-
Instructions of an LTspice schematic: spicelib/editor/asc_editor.py 676-708 (_get_text_space) and 747-822 (add_instruction,
remove_instruction, remove_Xinstruction).

Simplifications: as in Model.Asc; the regular expression of remove_Xinstruction is a test on the text of the directive
(`regex.match`). The journal entries made by end_update (base_schematic.py 415-420) are listed in the order they are made;
what the journal does with them is the subject of Model.Updates.
-/
namespace Model.AscInstr
open Model.Asc Model.PyStr

/-- UNIQUE_SIMULATION_DOT_INSTRUCTIONS (spice_utils.py 24) -/
def unique : List Str := [".AC".toList, ".DC".toList, ".TRAN".toList, ".NOISE".toList, ".TF".toList]

inductive Err where
  | index        -- IndexError of split()[0]
  | param        -- RuntimeError: use set_parameter
  | sheet        -- ValueError of the SHEET entry
  deriving DecidableEq, Repr

inductive Entry where
  | added (text : Str)
  | deleted (text : Str)
  deriving DecidableEq, Repr

/-- `text.split()[0].upper()` -/
def command (s : Str) : Except Err Str :=
  match words s with
  | [] => .error .index
  | w :: _ => .ok (upper w)

/-- `min(m, *values)` and `max(m, *values)` -/
def minOf (m : Int) (l : List Int) : Int := l.foldl min m
def maxOf (m : Int) (l : List Int) : Int := l.foldl max m

/-- The coordinates looked at by _get_text_space (687-706), in that order. -/
def xs (s : Sch) : List Int :=
  s.wires.flatMap (fun w => [w.x1, w.x2]) ++ s.labels.map Text.x ++ s.directives.map Text.x ++ s.comps.map (fun c => c.2.x)
def ys (s : Sch) : List Int :=
  s.wires.flatMap (fun w => [w.y1, w.y2]) ++ s.labels.map Text.y ++ s.directives.map Text.y ++ s.comps.map (fun c => c.2.y)

/-- _get_text_space (676-708). The second and third word of SHEET are read as numbers; the third is only used for min_y, which is
not used. -/
def textSpace (s : Sch) : Except Err (Int × Int) :=
  match words s.sheet with
  | [_, a, b] => match parseInt a, parseInt b with
    | some x, some _ => .ok (minOf (min 100000 x) (xs s), maxOf (-100000) (ys s) + 24)
    | _, _ => .error .sheet
  | _ => .error .sheet

/-- The search loop of add_instruction (753-770): the directives with the text of the first simulation command replaced, and the
text it had. -/
def replaceFirst (i : Str) : List Text → Except Err (Option (List Text × Str))
  | [] => .ok none
  | t :: l =>
    if t.type = .comment then (replaceFirst i l).map (Option.map (fun p => (t :: p.1, p.2)))
    else
      match command (strip t.text) with
      | .error e => .error e
      | .ok c =>
        if c ∈ unique then .ok (some ({ t with text := i } :: l, strip t.text))
        else (replaceFirst i l).map (Option.map (fun p => (t :: p.1, p.2)))

/-- Lines 773-777 -/
def append (s : Sch) (i : Str) : Except Err (Sch × List Entry) :=
  match textSpace s with
  | .error e => .error e
  | .ok (x, y) => .ok ({ s with directives := s.directives ++ [{ x, y, text := i, size := 2, type := .directive }] }, [.added i])

/-- add_instruction (747-778) -/
def add (s : Sch) (instruction : Str) : Except Err (Sch × List Entry) :=
  let i := strip instruction
  match command i with
  | .error e => .error e
  | .ok c =>
    if c ∈ unique then
      match replaceFirst i s.directives with
      | .error e => .error e
      | .ok (some (ds, old)) => .ok ({ s with directives := ds }, [.deleted old, .added i])
      | .ok none => append s i
    else if ".PARAM".toList.isPrefixOf c then .error .param
    else append s i

/-- remove_instruction (780-797) on the directives: the rest and the text removed. -/
def removeFirst (i : Str) : List Text → Option (List Text × Str)
  | [] => none
  | t :: l =>
    if t.type = .comment then (removeFirst i l).map (fun p => (t :: p.1, p.2))
    else if contains i t.text then some (l, t.text)
    else (removeFirst i l).map (fun p => (t :: p.1, p.2))

def remove (s : Sch) (i : Str) : Sch × List Entry × Bool :=
  match removeFirst i s.directives with
  | some (ds, old) => ({ s with directives := ds }, [.deleted old], true)
  | none => (s, [], false)

/-- remove_Xinstruction (799-822): the loop over the directives. -/
def removeAll (m : Str → Bool) : List Text → List Text × List Entry
  | [] => ([], [])
  | t :: l =>
    let r := removeAll m l
    if t.type = .comment then (t :: r.1, r.2)
    else if m t.text then (r.1, .deleted t.text :: r.2)
    else (t :: r.1, r.2)

def removeX (s : Sch) (m : Str → Bool) : Sch × List Entry × Bool :=
  let r := removeAll m s.directives
  ({ s with directives := r.1 }, r.2, !r.2.isEmpty)

/-- The three edits, as a user can chain them; an edit that raises leaves the schematic as it is. -/
inductive Op where
  | add (i : Str)
  | remove (i : Str)
  | removeX (m : Str → Bool)

def apply (s : Sch) : Op → Sch
  | .add i => match add s i with
    | .ok (s', _) => s'
    | .error _ => s
  | .remove i => (remove s i).1
  | .removeX m => (removeX s m).1

end Model.AscInstr
