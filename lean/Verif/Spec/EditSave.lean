import Verif.Spec.NetSave
import Verif.Model.EditSave
import Verif.Spec.LogicalLine
import Verif.Spec.ParamLine
/-
Specification: a netlist as a list of components, blocks and other lines.
-/
namespace Spec.EditSave
open Model.Netlist (Str)
open Spec.NetBlocks Spec.LogicalLine
open Spec.CompLine (Line Short Shape ShortKind)

/-- A component whose value is to be set; a component with a value only (controlled sources, switches, couplings); a line with parameters; anything else. -/
inductive Part where
  | comp (l : Line) (sh : Shape)
  | short (l : Short) (k : ShortKind)
  | params (l : Spec.ParamLine.Line)
  | block (b : Block)

def Part.toBlock : Part → Block
  | .comp l _ => .line (l.text ++ ['\n'])
  | .short l _ => .line (l.text ++ ['\n'])
  | .params l => .line l.text
  | .block b => b

/-- The text of the netlist; `e` is its last line. -/
def fileText (ps : List Part) (e : Str) : Str := (linesOf (ps.map Part.toBlock) ++ [e]).flatten

/-- A text that leaves no bracket or quote open and has no semicolon. -/
def Quiet (x : Str) : Prop := nest x = some outside ∧ ';' ∉ x

structure QuietLine (l : Line) : Prop where
  name : Quiet l.name
  nodes : ∀ n ∈ l.nodes, Quiet n.2
  pre : Quiet l.pre
  value : Quiet l.value
  items : Quiet l.itemsText

/-- A value that can be given to the component of the line. -/
structure Fits (word : Char → Bool) (l : Line) (sh : Shape) (v : Str) : Prop where
  value : Spec.CompLine.ValueOk word (l.itemsText ++ l.comment) sh v
  quiet : Quiet v
  blanks : ∀ c ∈ v, Model.PyStr.isSpace c = true → c = ' '

/-- The line of a file that takes one physical line and is not a continuation. -/
def OneLine (s : Str) : Prop :=
  (∃ t, s = t ++ ['\n'] ∧ ((∃ w, t = '*' :: w ∧ '\n' ∉ w) ∨ (Unbroken t ∧ nest t = some outside) ∨
    ∃ a w, t = a ++ ';' :: w ∧ '\n' ∉ w ∧ Unbroken a ∧ nest a = some outside)) ∧ s.head? ≠ some '+' ∧ s.head? ≠ some '\r'

/-- A comment, or something that leaves nothing open, or both, on one line. -/
def TailOk (t : Str) : Prop := (∀ c ∈ t, c ≠ '\n' ∧ c ≠ '\r') ∧ (Quiet t ∨ ∃ a x, t = a ++ ';' :: x ∧ Quiet a)

/-- A value of a parameter: of the grammar, on one line, nothing left open. -/
structure ParamFits (v : Str) : Prop where
  value : Spec.ParamLine.Value v
  quiet : Quiet v
  oneLine : ∀ c ∈ v, c ≠ '\n' ∧ c ≠ '\r'

/-- A parameter that can be set, with its value. -/
structure ParamSet (p v : Str) : Prop where
  name : Spec.ParamLine.Name p
  notNumber : ¬ Spec.ParamLine.NumberLike p
  fits : ParamFits v

/-- A line with parameters: of the grammar, the keyword a word of its own, no blanks around it, on one line. -/
structure ParamsOk (l : Spec.ParamLine.Line) : Prop where
  line : l.Ok
  word : ∀ c, (l.items.flatMap Spec.ParamLine.Item.text ++ l.tail).head? = some c → c = ' ' ∨ c = '\t' ∨ c = '\r' ∨ c = '\n'
  tidy : Spec.NetSave.Tidy l.text
  items : ∀ i ∈ l.items, (∀ c ∈ i.gap ++ i.sep, c ≠ '\n' ∧ c ≠ '\r') ∧ ParamFits i.value
  tail : ∃ t, l.tail = t ++ ['\n'] ∧ TailOk t

/-- `name` says which names of parameters are allowed. -/
def Part.Ok (word : Char → Bool) (name : Str → Prop) : Part → Prop
  | .comp l sh => l.Ok word sh ∧ (∀ i ∈ l.items, name i.2.name) ∧ l.Spaced ∧ QuietLine l
  | .short l k => l.Ok word k ∧ l.Spaced ∧ (∀ n ∈ l.nodes, n.1 = [' ']) ∧ (k = .coupling ∨ l.tail = []) ∧ OneLine (l.text ++ ['\n'])
  | .params l => ParamsOk l
  | .block b => b.ok ∧ Spec.NetSave.Block.neat word name b ∧ Spec.NetSave.Block.includes b = [] ∧ (∀ s ∈ b.lines, OneLine s) ∧
      ∀ s, b = .line s → kindOf s ≠ some .comp ∧ Model.Netlist.lineCommand s ≠ some ".PARAM".toList

/-- The same component up to its value, the number of blanks, and blanks at the end of the comment. -/
def SameButValue (l l' : Line) : Prop :=
  l'.letter = l.letter ∧ l'.marked = l.marked ∧ l'.name = l.name ∧ l'.nodes.map Prod.snd = l.nodes.map Prod.snd ∧ l'.pre = l.pre ∧
    l'.items = l.items ∧ Model.PyStr.rstrip l'.comment = Model.PyStr.rstrip l.comment

def pairs (l : Spec.ParamLine.Line) : List (Str × Str) := l.items.map (fun i => (i.name, i.value))

/-- The same parameters and comment; blanks may differ. -/
def SameParams (l l' : Spec.ParamLine.Line) : Prop := l'.kw = l.kw ∧ pairs l' = pairs l ∧ Model.PyStr.strip l'.tail = Model.PyStr.strip l.tail

/-- The same part up to the number of blanks. -/
def Part.Same : Part → Part → Prop
  | .comp l sh, .comp l' sh' => SameButValue l l' ∧ l'.value = l.value ∧ sh' = sh
  | .params l, .params l' => SameParams l l'
  | p, q => q = p

/-- The same part but for the value of a component, the values of parameters, and blanks. -/
def Alike : Part → Part → Prop
  | .comp l sh, .comp l' sh' => SameButValue l l' ∧ sh' = sh
  | .params l, .params l' => l'.kw = l.kw ∧ l'.items.map (·.name) = l.items.map (·.name) ∧ Model.PyStr.strip l'.tail = Model.PyStr.strip l.tail
  | p, q => q = p

/-- The same parts but for values and blanks, and lines with one parameter each put in between. -/
inductive Grown : List Part → List Part → Prop where
  | nil : Grown [] []
  | cons {p q : Part} {ps qs : List Part} : Alike p q → Grown ps qs → Grown (p :: ps) (q :: qs)
  | new {l : Spec.ParamLine.Line} {ps qs : List Part} : l.items.length = 1 → Grown ps qs → Grown ps (.params l :: qs)

/-- The reference and the value of a component. -/
def Part.entry : Part → Option (Str × Str)
  | .comp l _ => some (l.reference, l.value)
  | .short l _ => some (l.reference, l.value)
  | .params _ => none
  | .block _ => none

/-- The value of the first component of this reference, in any case. -/
def first (r : Str) (ps : List Part) : Option Str :=
  ((ps.filterMap Part.entry).find? (fun x => Model.PyStr.upper x.1 == Model.PyStr.upper r)).map Prod.snd

/-- The value `v` for the first component of this reference. -/
def setFirst (r v : Str) : List Part → List Part
  | [] => []
  | .comp l sh :: ps => if Model.PyStr.upper l.reference = Model.PyStr.upper r then .comp { l with value := v } sh :: ps else .comp l sh :: setFirst r v ps
  | p :: ps => p :: setFirst r v ps

/-- The first component of this reference is one whose value may be set to `v`. -/
def Settable (word : Char → Bool) (r v : Str) : List Part → Prop
  | [] => False
  | .comp l sh :: ps => (Model.PyStr.upper l.reference = Model.PyStr.upper r ∧ Fits word l sh v) ∨ (Model.PyStr.upper l.reference ≠ Model.PyStr.upper r ∧ Settable word r v ps)
  | .short l _ :: ps => Model.PyStr.upper l.reference ≠ Model.PyStr.upper r ∧ Settable word r v ps
  | .params _ :: ps => Settable word r v ps
  | .block _ :: ps => Settable word r v ps

/-- The parameters of a part, and of a netlist: the first definition counts. -/
def Part.items : Part → List Spec.ParamLine.Item
  | .params l => l.items
  | _ => []

def paramOf (p : Str) (ps : List Part) : Option Str := Spec.ParamLine.find p (ps.flatMap Part.items)

/-- `.PARAM p=v` with its comment. -/
def newParam (p v : Str) : Spec.ParamLine.Line := ⟨".PARAM".toList, [⟨" ".toList, p, "=".toList, v⟩], "  ; Batch instruction\n".toList⟩

/-- The value `v` for the first definition of the parameter. -/
def setDefined (p v : Str) : List Part → List Part
  | [] => []
  | .params l :: ps =>
    if (Spec.ParamLine.find p l.items).isSome then .params { l with items := Spec.ParamLine.assign p v l.items } :: ps else .params l :: setDefined p v ps
  | q :: ps => q :: setDefined p v ps

/-- The parameter with the value `v`: a new line before the last part if the netlist does not define it. -/
def setParamOf (p v : Str) (ps : List Part) : List Part :=
  if (paramOf p ps).isSome then setDefined p v ps else ps.take (ps.length - 1) ++ .params (newParam p v) :: ps.drop (ps.length - 1)

/-- The netlist after one operation: saving and opening again changes nothing. -/
def edited (ps : List Part) : Model.EditSave.Op → List Part
  | .set r v => setFirst r v ps
  | .param p v => setParamOf p v ps
  | .reopen => ps

def sets (r : Str) : Model.EditSave.Op → Option Str
  | .set r' v => if Model.PyStr.upper r' = Model.PyStr.upper r then some v else none
  | .param _ _ => none
  | .reopen => none

def setsParam (p : Str) : Model.EditSave.Op → Option Str
  | .param p' v => if Model.PyStr.upper p' = Model.PyStr.upper p then some v else none
  | .set _ _ => none
  | .reopen => none

/-- The value that was set last for this reference. -/
def lastSet (r : Str) (ops : List Model.EditSave.Op) : Option Str := ops.reverse.findSome? (sets r)

/-- The value that was set last for this parameter. -/
def lastParam (p : Str) (ops : List Model.EditSave.Op) : Option Str := ops.reverse.findSome? (setsParam p)

/-- All the values and parameters that are set can be set. -/
structure Legal (word : Char → Bool) (ops : List Model.EditSave.Op) (ps : List Part) : Prop where
  values : ∀ r v, Model.EditSave.Op.set r v ∈ ops → Settable word r v ps
  params : ∀ p v, Model.EditSave.Op.param p v ∈ ops → ParamSet p v

end Spec.EditSave
