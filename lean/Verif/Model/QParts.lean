import Verif.Model.QSession
/-
Sessions on QSPICE schematics with set_component_parameters: spicelib/editor/qsch_editor.py 417-440 (get_parameters), 442-524 (set_parameters), 1167-1187, on the tree of tags of the file; the
other calls are those of Model.QSession.

Simplifications: those of Model.QSession; a call has one keyword argument, a name (not a line number), with a text or None; the place of a new text is an argument of the call (514 computes
it from the symbol); a component taken off the sheet is changed out of sight (the sheet stays as it is); `none` is an exception.
-/
namespace Model.QParts
open Model.PyStr Model.Qsch
open Model.QSession (Sch Op isTag kids symbolOf isComp updNth onComp)
open Model.QComp (tagText textHead newTag hit rewrite)

abbrev Str := List Char

/-- What the code asks about a tag of a symbol: is it a text (and what does it say), is it a pin (509-515). -/
def kind (t : Tag) : Model.QComp.Tag :=
  if isTag "text".toList t then .text ((tagText t).getD []) else if isTag "pin".toList t then .pin else .other 0

/-- 472-501: the texts from the value on; the first one with the parameter is changed, or taken out with None when nothing else is in it. The outer none: no text has it; the inner
one: an exception of set_attr. `n` texts were passed. -/
def editTags (k : Str) (v : Option Str) : Nat → List Tag → Option (Option (List Tag))
  | _, [] => none
  | n, t :: l =>
    if isTag "text".toList t then
      if n = 0 then (editTags k v 1 l).map (Option.map (t :: ·))
      else match hit k ((tagText t).getD []) with
        | some m => some (match rewrite v ((tagText t).getD []) m with
            | some w => (t.setAttr 8 (.str w)).map (· :: l)
            | none => some l)
        | none => (editTags k v (n + 1) l).map (Option.map (t :: ·))
    else (editTags k v n l).map (Option.map (t :: ·))

/-- 507-519: after the texts, before the first pin. -/
def insertTags (l : List Tag) (t : Tag) : List Tag :=
  if Model.QComp.place 0 0 (l.map kind) < l.length then l.take (Model.QComp.place 0 0 (l.map kind)) ++ t :: l.drop (Model.QComp.place 0 0 (l.map kind)) else l ++ [t]

/-- 449-524, on the symbol. -/
def editSymbol (x y : Int) (k : Str) (v : Option Str) (s : Tag) : Option Tag :=
  match editTags k v 0 s.items with
  | some r => r.map (Tag.mk s.tokens)
  | none =>
    match v with
    | none => some s
    | some w =>
      match newTag (textHead "0.5".toList x y) (k ++ '=' :: w) with
      | .ok (t, _) => some (.mk s.tokens (insertTags s.items t))
      | .error _ => none

def editComp (x y : Int) (k : Str) (v : Option Str) (c : Tag) : Option Tag :=
  (updNth (isTag "symbol".toList) (editSymbol x y k v) 0 c.items).map (Tag.mk c.tokens)

inductive Cmd where
  | base (op : Op)
  | part (x y : Int) (r k : Str) (v : Option Str)

/-- 1180-1187: set_component_parameters. -/
def step (s : Sch) : Cmd → Option Sch
  | .base op => Model.QSession.step s op
  | .part x y r k v => onComp s r (editComp x y k v)

def run (s : Sch) : List Cmd → Option Sch
  | [] => some s
  | c :: cs => (step s c).bind (fun s => run s cs)

/-- 427-438: the texts of the symbol. -/
def symbolTexts (s : Sch) (r : Str) : Option (List Str) :=
  (s.items.find? (isComp r)).bind (fun c => (symbolOf c).map (fun y => (kids "text".toList y.items).map (fun t => (tagText t).getD [])))

/-- 1167-1178, 417-440: what get_component_parameters shows for a name. -/
def getPart (s : Sch) (r k : Str) : Option Str := (symbolTexts s r).bind (fun l => (Model.QComp.readTexts 2 (l.drop 2) []).lookup (.name k))

end Model.QParts
