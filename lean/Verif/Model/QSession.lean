import Verif.Model.QComp
/-
An editing session on a QSPICE schematic, call after call on the tree of tags of the file (Model.Qsch): set_component_value and set_element_model
(spicelib/editor/qsch_editor.py 387-415, 1146-1156), set_component_position with an angle (533-559, 1194-1201: Model.Qsch.setPosition), set_parameter (1035-1049, 1099-1135),
add_instruction, remove_instruction, remove_Xinstruction (1248-1322), remove_component (1209-1217), save_as to another file and opening it (583-601, 885-1033).

Simplifications: those of Model.Qsch and Model.QComp; values are given as text; the place of a new text is an argument of the call (1219-1246 compute it from the tree); of several components
with the same reference the first is meant (the dictionary of the code keeps the last; the theorems ask for different references); opening a file does what Model.Qsch.readFile does, that the
positions, nets and embedded sub-circuits can be made sense of is left out (Model.QNets, Model.QPin); the permission and the journal are left out (Model.QComp); `none` is an exception.
-/
namespace Model.QSession
open Model.PyStr Model.Qsch
open Model.ParamRegex (QText qualifier unqualify qFind qGet splice)
open Model.QComp (tagText textHead newTag command unique)

abbrev Str := List Char

/-- qsch_editor.py 262-264: `tag.tag == name` -/
def isTag (name : Str) (t : Tag) : Bool := decide (t.tokens.head? = some name)

/-- 267-270: get_items -/
def kids (name : Str) (l : List Tag) : List Tag := l.filter (isTag name)

/-- 392-394: symbol_tag -/
def symbolOf (c : Tag) : Option Tag := (kids "symbol".toList c.items).head?

/-- The n-th text of the symbol of a component (945-952). -/
def textAt (c : Tag) (n : Nat) : Option Str := (symbolOf c).bind (fun y => ((kids "text".toList y.items)[n]?).bind tagText)

/-- The tag of the component with this reference. -/
def isComp (r : Str) (c : Tag) : Bool := isTag "component".toList c && decide (textAt c 0 = some r)

/-- The state of the editor: the tokens and items of the root tag, and the references of components taken off the sheet (they stay in the dictionary). -/
structure Sch where
  toks : List Str
  items : List Tag
  gone : List Str

/-- Changes the n-th of the items with a property. -/
def updNth (p : Tag → Bool) (f : Tag → Option Tag) : Nat → List Tag → Option (List Tag)
  | _, [] => none
  | n, t :: l =>
    if p t then
      match n with
      | 0 => (f t).map (· :: l)
      | n + 1 => (updNth p f n l).map (t :: ·)
    else (updNth p f n l).map (t :: ·)

/-- 402-415: set_model. -/
def setVal (v : Str) (c : Tag) : Option Tag :=
  (updNth (isTag "symbol".toList) (fun y => (updNth (isTag "text".toList) (fun t => t.setAttr 8 (.str v)) 1 y.items).map (Tag.mk y.tokens)) 0 c.items).map (Tag.mk c.tokens)

def onComp (s : Sch) (r : Str) (f : Tag → Option Tag) : Option Sch :=
  if r ∈ s.gone then some s else (updNth (isComp r) f 0 s.items).map (fun l => { s with items := l })

/-- 533-559 -/
def place (x y d : Int) (mirror : Bool) (c : Tag) : Option Tag := if (setPosition c x y (.int d) mirror).2 then none else some (setPosition c x y (.int d) mirror).1

/-- A text of the sheet: whether it is a comment (1039, 1060, 1263) and what it says. -/
def view (t : Tag) : QText := ⟨decide (t.getAttr 4 = some (.int 1)), (tagText t).getD []⟩

def texts (items : List Tag) : List QText := (kids "text".toList items).map view

/-- 1126-1130, 1276-1278: a new text. -/
def addText (s : Sch) (x y : Int) (body : Str) : Option Sch :=
  match newTag (textHead "1".toList x y) (qualifier ++ body) with
  | .ok (t, _) => some { s with items := s.items ++ [t] }
  | .error _ => none

/-- 1099-1135: set_parameter. -/
def setParam (s : Sch) (x y : Int) (p v : Str) : Option Sch :=
  match qFind p (texts s.items) with
  | some (i, m) =>
    (updNth (isTag "text".toList) (fun t => t.setAttr 8 (.str (splice (view t).text (m.start + qualifier.length) (m.stop + qualifier.length) v))) i s.items).map (fun l => { s with items := l })
  | none => addText s x y (".param ".toList ++ p ++ '=' :: v)

/-- 1261-1269: which text is an analysis command; the outer none is the IndexError of `text.split()[0]`. -/
def commandAt : List QText → Option (Option Nat)
  | [] => some none
  | t :: l =>
    if t.comment then (commandAt l).map (Option.map (· + 1))
    else match command (unqualify t.text) with
      | none => none
      | some c => if c ∈ unique then some (some 0) else (commandAt l).map (Option.map (· + 1))

/-- 1248-1278: add_instruction. -/
def instruct (s : Sch) (x y : Int) (instruction : Str) : Option Sch :=
  match command (strip instruction) with
  | none => none
  | some c =>
    if c ∈ unique then
      match commandAt (texts s.items) with
      | none => none
      | some (some n) => (updNth (isTag "text".toList) (fun t => t.setAttr 8 (.str (qualifier ++ strip instruction))) n s.items).map (fun l => { s with items := l })
      | some none => addText s x y (strip instruction)
    else if ".PARAM".toList.isPrefixOf c then none
    else addText s x y (strip instruction)

/-- 1281-1298: remove_instruction takes out the first text that contains it. -/
def hits (i : Str) (t : Tag) : Bool := isTag "text".toList t && !(view t).comment && contains i (view t).text

/-- 1300-1322: remove_Xinstruction; `m` is `regex.match`. -/
def matches_ (m : Str → Bool) (t : Tag) : Bool := isTag "text".toList t && !(view t).comment && m (unqualify (view t).text)

inductive Op where
  | value (r v : Str)
  | move (r : Str) (x y d : Int) (mirror : Bool)
  | remove (r : Str)
  | param (x y : Int) (p v : Str)
  | instruct (x y : Int) (i : Str)
  | drop (i : Str)
  | dropAll (m : Str → Bool)
  | reopen

def step (s : Sch) : Op → Option Sch
  | .value r v => onComp s r (setVal v)
  | .move r x y d mirror => onComp s r (place x y d mirror)
  | .remove r => if r ∈ s.gone ∨ ¬ s.items.any (isComp r) then none else some { s with items := s.items.eraseP (isComp r), gone := r :: s.gone }
  | .param x y p v => setParam s x y p v
  | .instruct x y i => instruct s x y i
  | .drop i => some { s with items := s.items.eraseP (hits i) }
  | .dropAll m => some { s with items := s.items.filter (fun t => !matches_ m t) }
  | .reopen =>
    match readFile (fileText (.mk s.toks s.items)) with
    | some (.ok (t, _)) => some ⟨t.tokens, t.items, []⟩
    | _ => none

def run (s : Sch) : List Op → Option Sch
  | [] => some s
  | op :: ops => (step s op).bind (fun s => run s ops)

/-- What save_as writes. -/
def fileOf (s : Sch) : Str := fileText (.mk s.toks s.items)

/-- 885-1033: a sheet just read. -/
def opened (t : Tag) : Sch := ⟨t.tokens, t.items, []⟩

/-- What get_component_value (1158-1165) and get_component_position (1189-1192) show of a file just opened. -/
def getValue (s : Sch) (r : Str) : Option Str := (s.items.find? (isComp r)).bind (fun c => textAt c 1)
def getPlace (s : Sch) (r : Str) : Option (Option Attr × Option Attr) := (s.items.find? (isComp r)).map (fun c => (c.getAttr 1, c.getAttr 2))

/-- 1090-1097: get_parameter. -/
def getParam (s : Sch) (p : Str) : Option Str := qGet (texts s.items) p

end Model.QSession
