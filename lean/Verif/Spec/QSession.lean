import Verif.Spec.QschTree
import Verif.Spec.AscInstr
import Verif.Spec.ParamLine
import Verif.Model.QSession
/-
Specification: sheets of QSPICE, and what the calls of a session say about the file at the end.
-/
namespace Spec.QSession
open Model.Qsch (Tag Attr)
open Model.QSession (Op Sch isTag textAt)
open Model.ParamRegex (QText qualifier)
open Spec.QschTree (Token WellFormed HasColon)

abbrev Str := List Char

/-- A text tag: eight tokens without a colon, and the text between quotation marks. -/
def TextTag (t : Tag) : Prop :=
  ∃ (pre : List Str) (s : Str), t = .mk (pre ++ ['"' :: s ++ ['"']]) [] ∧ pre.length = 8 ∧ (∀ w ∈ pre, Token w ∧ ':' ∉ w) ∧ '"' ∉ s ∧ ¬ HasColon s

/-- The symbol of a component: any tags, its texts being text tags, at least two of them. -/
def SymbolTag (y : Tag) : Prop :=
  y.tokens.head? = some "symbol".toList ∧ (∀ w ∈ y.tokens, Token w) ∧ (∀ k ∈ y.items, WellFormed k ∧ (k.tokens.head? = some "text".toList → TextTag k)) ∧
    2 ≤ (y.items.filter (isTag "text".toList)).length

def CompTag (c : Tag) : Prop := ∃ (toks : List Str) (y : Tag), c = .mk toks [y] ∧ 3 ≤ toks.length ∧ (∀ w ∈ toks, Token w) ∧ SymbolTag y

/-- A sheet that can be saved and opened again; the components on it have different references, and those taken off are not on it. -/
structure SheetOk (s : Sch) : Prop where
  root : s.toks = ["schematic".toList]
  tags : ∀ t ∈ s.items, WellFormed t
  texts : ∀ t ∈ s.items, t.tokens.head? = some "text".toList → TextTag t
  comps : ∀ t ∈ s.items, t.tokens.head? = some "component".toList → CompTag t
  refs : ((s.items.filter (isTag "component".toList)).map (fun c => textAt c 0)).Nodup
  away : ∀ r ∈ s.gone, ∀ t ∈ s.items, t.tokens.head? = some "component".toList → textAt t 0 ≠ some r

/-- The value of the component after the call; one that is not on the sheet stays away. -/
def valueAfter (r : Str) (old : Option Str) : Op → Option Str
  | .value r' v => if r' = r then old.map (fun _ => v) else old
  | .remove r' => if r' = r then none else old
  | _ => old

/-- The angle as QSPICE counts it: eighths of a turn, eight more when mirrored. -/
def eighths (d : Int) (mirror : Bool) : Int := (d % 360) / 45 + if mirror then 8 else 0

/-- Its position and orientation in the file. -/
def placeAfter (r : Str) (old : Option (Option Attr × Option Attr)) : Op → Option (Option Attr × Option Attr)
  | .move r' x y d mirror => if r' = r then old.map (fun _ => (some (.tuple [x, y]), some (.int (eighths d mirror)))) else old
  | .remove r' => if r' = r then none else old
  | _ => old

def paramSaid (q : Str) : Op → Option Str
  | .param _ _ p v => if Spec.ParamLine.Same q p then some v else none
  | _ => none

def last {α : Type} (said : Op → Option α) (ops : List Op) : Option α := ops.reverse.findSome? said

/-- A text that can stand between quotation marks in the file. -/
def Plain (v : Str) : Prop := '"' ∉ v ∧ ¬ HasColon v

/-- An instruction that does not start with one of the three characters of the mark. -/
def Unmarked (i : Str) : Prop := ∀ c, (Model.PyStr.strip i).head? = some c → c ≠ 'ï' ∧ c ≠ '»' ∧ c ≠ '¿'

def ArgsOk : Op → Prop
  | .value _ v => Plain v ∧ v.take 2 ≠ ['0', 'x']
  | .param _ _ p v => Spec.ParamLine.Name p ∧ ¬ Spec.ParamLine.NumberLike p ∧ Spec.ParamLine.Value v ∧ Plain v
  | .instruct _ _ i => Plain i ∧ Unmarked i
  | _ => True

/-- The text without the mark of an instruction. -/
def bare (s : Str) : Str := s.dropWhile (fun c => c = 'ï' ∨ c = '»' ∨ c = '¿')

/-- A text with parameters. -/
def ParamText (t : QText) : Prop := t.comment = false ∧ ∃ w r : Str, bare t.text = w ++ r ∧ Model.PyStr.upper w = ".PARAM".toList

def ParamsOk (ts : List QText) : Prop := ∀ t ∈ ts, ParamText t → ∃ l : Spec.ParamLine.Line, l.Ok ∧ t.text = qualifier ++ l.text

/-- A text that selects an analysis. -/
def Simulates (t : QText) : Prop := t.comment = false ∧ Spec.AscInstr.Command (bare t.text)

def AtMostOne (ts : List QText) : Prop := ts.Pairwise (fun t u => ¬ (Simulates t ∧ Simulates u))

/-- Removing instructions does not touch a text with parameters. -/
def Keeps (ts : List QText) : Op → Prop
  | .drop i => ∀ t ∈ ts, Model.PyStr.contains i t.text = true → ¬ ParamText t
  | .dropAll m => ∀ t ∈ ts, m (bare t.text) = true → ¬ ParamText t
  | _ => True

def KeepsAll : Sch → List Op → Prop
  | _, [] => True
  | s, op :: ops => Keeps (Model.QSession.texts s.items) op ∧ ∀ s', Model.QSession.step s op = some s' → KeepsAll s' ops

/-- Everything on the sheet that is neither a text nor a component: wires, nets, drawings, junctions. -/
def others (s : Sch) : List Tag := s.items.filter (fun t => !isTag "text".toList t && !isTag "component".toList t)

/-- The references of the components on the sheet, in order. -/
def refs (s : Sch) : List (Option Str) := (s.items.filter (isTag "component".toList)).map (fun c => textAt c 0)

/-- The comments. -/
def comments (s : Sch) : List Tag := s.items.filter (fun t => isTag "text".toList t && (Model.QSession.view t).comment)

/-- What the calls of a session leave as it is in a component: everything but its position, its orientation and its value. -/
def restOf (c : Tag) : List Str × List (List Str) × List (List Tag) × List (List Tag) :=
  (c.tokens.take 1 ++ c.tokens.drop 3, c.items.map Tag.tokens, c.items.map (fun y => y.items.filter (fun t => !isTag "text".toList t)),
    c.items.map (fun y => (y.items.filter (isTag "text".toList)).eraseIdx 1))

def Removes (r : Str) : Op → Prop
  | .remove r' => r = r'
  | _ => False

instance (r : Str) (op : Op) : Decidable (Removes r op) := by
  cases op <;> unfold Removes <;> infer_instance

/-- Every instruction on the sheet has a first word. -/
def NoBlank (ts : List QText) : Prop := ∀ t ∈ ts, t.comment = false → ∃ w, Spec.AscInstr.FirstWord (bare t.text) w

/-- The calls the editor carries out: those about a component it knows (one taken off can still be changed, but not taken off again), and instructions that are not blank and do not start with .PARAM. -/
def Accepted (s : Sch) : Op → Prop
  | .value r _ => r ∈ s.gone ∨ some r ∈ refs s
  | .move r _ _ _ _ => r ∈ s.gone ∨ some r ∈ refs s
  | .remove r => some r ∈ refs s
  | .instruct _ _ i => ∃ w, Spec.AscInstr.FirstWord i w ∧ ¬ ".PARAM".toList <+: Model.PyStr.upper w
  | _ => True

/-- What a call does to the texts of the sheet: an instruction takes the place of the first analysis command when both are one, otherwise it is the last text; removing takes out the
first text that contains the words, or all those whose instruction has the pattern; comments are neither replaced nor removed; a parameter is changed in its text or is in a new one. -/
inductive TextsStep : Op → List QText → List QText → Prop
  | value (r v ts) : TextsStep (.value r v) ts ts
  | move (r x y d m ts) : TextsStep (.move r x y d m) ts ts
  | remove (r ts) : TextsStep (.remove r) ts ts
  | reopen (ts) : TextsStep .reopen ts ts
  | newParam (x y p v ts) (u : QText) (h : ParamText u) : TextsStep (.param x y p v) ts (ts ++ [u])
  | setParam (x y p v a b) (t u : QText) (h : ParamText t) (h' : ParamText u) : TextsStep (.param x y p v) (a ++ t :: b) (a ++ u :: b)
  | analysis (x y i a b) (t : QText) (h : Simulates t) (hi : Spec.AscInstr.Command i) (ha : ∀ u ∈ a, ¬ Simulates u) :
      TextsStep (.instruct x y i) (a ++ t :: b) (a ++ ⟨false, qualifier ++ Model.PyStr.strip i⟩ :: b)
  | instruct (x y i ts) (h : Spec.AscInstr.Command i → ∀ t ∈ ts, ¬ Simulates t) : TextsStep (.instruct x y i) ts (ts ++ [⟨false, qualifier ++ Model.PyStr.strip i⟩])
  | drop (i a b) (t : QText) (h : t.comment = false) (hi : i <:+: t.text) (ha : ∀ u ∈ a, u.comment = true ∨ ¬ i <:+: u.text) : TextsStep (.drop i) (a ++ t :: b) (a ++ b)
  | absent (i ts) (h : ∀ u ∈ ts, u.comment = true ∨ ¬ i <:+: u.text) : TextsStep (.drop i) ts ts
  | dropAll (m ts) : TextsStep (.dropAll m) ts (ts.filter (fun t => t.comment || !m (bare t.text)))

inductive TextsRun : List Op → List QText → List QText → Prop
  | nil (ts) : TextsRun [] ts ts
  | cons (op ops ts ts' ts'') (h : TextsStep op ts ts') (hs : TextsRun ops ts' ts'') : TextsRun (op :: ops) ts ts''

end Spec.QSession
