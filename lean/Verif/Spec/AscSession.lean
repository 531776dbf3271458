import Verif.Spec.AscFile
import Verif.Spec.AscInstr
import Verif.Spec.ParamLine
import Verif.Model.AscSession
/-
Specification: what the calls of a session on a schematic say about what is read at the end.
-/
namespace Spec.AscSession
open Model.Asc (Sch Text)
open Model.AscSession (Op)
open Spec.AscFile (Trimmed Word Orientation)

abbrev Str := List Char

/-- What the call says about an attribute of a component: nothing, or its new text, or that the component is gone. -/
def attrSaid (r k : Str) : Op → Option (Option Str)
  | .value r' v => if r' = r ∧ k = "Value".toList then some (some v) else none
  | .attr r' k' v => if r' = r ∧ k' = k then some (some (Model.PyStr.strip v)) else none
  | .remove r' => if r' = r then some none else none
  | _ => none

/-- What it says about the symbol of a component. -/
def symbolSaid (r : Str) : Op → Option (Option Str)
  | .model r' m => if r' = r then some (some m) else none
  | .remove r' => if r' = r then some none else none
  | _ => none

/-- Where the component is after the call. -/
def placeAfter (r : Str) (old : Option (Int × Int × Nat)) : Op → Option (Int × Int × Nat)
  | .move r' x y rot => if r' = r then some (x, y, rot) else old
  | .remove r' => if r' = r then none else old
  | .scale fx fy => old.map (fun p => (fx p.1, fy p.2.1, p.2.2))
  | _ => old

/-- What it says about a parameter. -/
def paramSaid (q : Str) : Op → Option Str
  | .param p v => if Spec.ParamLine.Same q p then some v else none
  | _ => none

/-- The last thing said. -/
def last {α : Type} (said : Op → Option α) (ops : List Op) : Option α := ops.reverse.findSome? said

/-- A text that can stand for an attribute in a file. -/
def Savable (v : Str) : Prop := v ≠ [] ∧ Trimmed v

/-- The arguments of the call are texts that a file can hold. -/
def ArgsOk : Op → Prop
  | .value _ v => Savable v
  | .attr _ _ v => Model.PyStr.strip v ≠ [] ∧ '\n' ∉ v
  | .model _ m => ∃ ws : List Str, (∀ w ∈ ws, Word w) ∧ m = List.intercalate [' '] ws
  | .move _ _ _ rot => Orientation rot
  | .param p v => Spec.ParamLine.Name p ∧ ¬ Spec.ParamLine.NumberLike p ∧ Spec.ParamLine.Value v ∧ '\n' ∉ v
  | .instruct i => '\n' ∉ i
  | _ => True

/-- A directive with parameters. -/
def ParamText (t : Text) : Prop := t.type ≠ .comment ∧ ∃ w r : Str, t.text = w ++ r ∧ Model.PyStr.upper w = ".PARAM".toList

/-- Removing instructions does not touch a directive with parameters. -/
def Keeps (s : Sch) : Op → Prop
  | .drop i => ∀ t ∈ s.directives, Model.PyStr.contains i t.text = true → ¬ ParamText t
  | .dropAll m => ∀ t ∈ s.directives, m t.text = true → ¬ ParamText t
  | _ => True

/-- … at any time of the session. -/
def KeepsAll : Sch → List Op → Prop
  | _, [] => True
  | s, op :: ops => Keeps s op ∧ ∀ s', Model.AscSession.step s op = some s' → KeepsAll s' ops

/-- The texts of the sheet that hold parameters are in the grammar of Spec.ParamLine. -/
def ParamsOk (s : Sch) : Prop := ∀ t ∈ s.directives, ParamText t → ∃ l : Spec.ParamLine.Line, l.Ok ∧ l.text = t.text

/-- The value of a component as it is shown: its two value attributes with a space between them. -/
def joined : Option Str → Option Str → Option Str
  | some a, some b => some (a ++ ' ' :: b)
  | some a, none => some a
  | none, some b => some b
  | none, none => none

/-- The call takes the component away. -/
def Removes (r : Str) : Op → Prop
  | .remove r' => r = r'
  | _ => False

instance (r : Str) (op : Op) : Decidable (Removes r op) := by
  cases op <;> unfold Removes <;> infer_instance

/-- The sheet without its components and texts. -/
def drawing (s : Sch) : Sch := { s with comps := [], directives := [], ports := [] }

/-- The drawing after the call: scaling moves every point, other calls do nothing to it. -/
def drawingAfter (d : Sch) : Op → Sch
  | .scale fx fy =>
    { d with
      wires := d.wires.map (fun l => { l with x1 := fx l.x1, x2 := fx l.x2, y1 := fy l.y1, y2 := fy l.y2 })
      lines := d.lines.map (fun l => { l with x1 := fx l.x1, x2 := fx l.x2, y1 := fy l.y1, y2 := fy l.y2 })
      labels := d.labels.map (fun t => { t with x := fx t.x, y := fy t.y })
      shapes := d.shapes.map (fun h => { h with points := h.points.map (fun q => (fx q.1, fy q.2)) }) }
  | _ => d

/-- What a call does to the texts of the sheet: an instruction takes the place of the first analysis command when both are one, otherwise it is the last text; removing takes out the
first text that contains the words, or all those that match; comments are neither replaced nor removed; a parameter is changed in its text, or is in a new one; scaling moves the texts. -/
inductive TextsStep : Op → List Text → List Text → Prop
  | value (r v ts) : TextsStep (.value r v) ts ts
  | attr (r k v ts) : TextsStep (.attr r k v) ts ts
  | model (r m ts) : TextsStep (.model r m) ts ts
  | move (r x y o ts) : TextsStep (.move r x y o) ts ts
  | remove (r ts) : TextsStep (.remove r) ts ts
  | reopen (ts) : TextsStep .reopen ts ts
  | newParam (p v ts) (u : Text) (h : ParamText u) : TextsStep (.param p v) ts (ts ++ [u])
  | setParam (p v a b) (t : Text) (w : Str) (h : ParamText t) (h' : ParamText { t with text := w }) : TextsStep (.param p v) (a ++ t :: b) (a ++ { t with text := w } :: b)
  | analysis (i a b) (t : Text) (h : Spec.AscInstr.Simulates t) (hi : Spec.AscInstr.Command i) (ha : ∀ u ∈ a, ¬ Spec.AscInstr.Simulates u) :
      TextsStep (.instruct i) (a ++ t :: b) (a ++ { t with text := Model.PyStr.strip i } :: b)
  | instruct (i ts) (x y : Int) (h : Spec.AscInstr.Command i → ∀ t ∈ ts, ¬ Spec.AscInstr.Simulates t) :
      TextsStep (.instruct i) ts (ts ++ [{ x, y, text := Model.PyStr.strip i, size := 2, type := .directive }])
  | drop (i a b) (t : Text) (h : t.type ≠ .comment) (hi : i <:+: t.text) (ha : ∀ u ∈ a, u.type = .comment ∨ ¬ i <:+: u.text) : TextsStep (.drop i) (a ++ t :: b) (a ++ b)
  | absent (i ts) (h : ∀ u ∈ ts, u.type = .comment ∨ ¬ i <:+: u.text) : TextsStep (.drop i) ts ts
  | dropAll (m ts) : TextsStep (.dropAll m) ts (ts.filter (fun t => t.type == .comment || !m t.text))
  | scale (fx fy ts) : TextsStep (.scale fx fy) ts (ts.map (fun t => { t with x := fx t.x, y := fy t.y }))

inductive TextsRun : List Op → List Text → List Text → Prop
  | nil (ts) : TextsRun [] ts ts
  | cons (op ops ts ts' ts'') (h : TextsStep op ts ts') (hs : TextsRun ops ts' ts'') : TextsRun (op :: ops) ts ts''

end Spec.AscSession
