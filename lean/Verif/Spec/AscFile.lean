import Verif.Model.Asc
/-
Specification: which schematics can be written to an LTspice .asc file. Only the data types and the notions of white space,
capital letters and blank separated words are taken from the model.
-/
namespace Spec.AscFile
open Model.Asc (Text Comp Line Shape Sch AttrVal)
open Model.PyStr (isSpace upper)

abbrev Str := List Char

/-- A word: not empty, no white space. -/
def Word (w : Str) : Prop := w ≠ [] ∧ ∀ c ∈ w, isSpace c = false

/-- One line of text without white space at its ends; may be empty. -/
def Trimmed (s : Str) : Prop :=
  (∀ c, s.head? = some c → isSpace c = false) ∧ (∀ c, s.getLast? = some c → isSpace c = false) ∧ '\n' ∉ s

/-- The alignment is one the format has a word for: at least one of the two directions is centred, and a hidden text is centred in
both. -/
def Aligned (t : Text) : Prop :=
  (t.ver = .center ∨ t.hor = .center) ∧ (t.visible = false → t.ver = .center ∧ t.hor = .center)

/-- A directive or comment of the schematic, written horizontally. -/
structure DirectiveOk (t : Text) : Prop where
  type : t.type = .directive ∨ t.type = .comment
  aligned : Aligned t
  angle : t.angle = 0
  size : 0 ≤ t.size
  text : Trimmed t.text

/-- A net label. -/
def LabelOk (t : Text) : Prop :=
  Word t.text ∧ t = { x := t.x, y := t.y, text := t.text, type := .label }

/-- The position of an attribute text on the schematic (a WINDOW line); vertical texts are possible. -/
def WindowOk (a : Str × AttrVal) : Prop :=
  ∃ (n : Str) (t : Text), a = ("_WINDOW ".toList ++ n, .text t) ∧ Word n ∧ t.text = n ∧ t.type = .attribute ∧
    Aligned t ∧ (t.angle = 0 ∨ t.angle = 90)

/-- An attribute: its name is a word that is not InstName, its value is not empty; a prefix has capital letters. -/
def AttrOk (a : Str × AttrVal) : Prop :=
  ∃ k v : Str, a = (k, .str v) ∧ Word k ∧ k.head? ≠ some '_' ∧ k ≠ "InstName".toList ∧ v ≠ [] ∧ Trimmed v ∧
    (upper k = "PREFIX".toList → upper v = v)

/-- The eight orientations of LTspice, in degrees, mirrored ones 360 higher. -/
def Orientation (r : Nat) : Prop := r ∈ [0, 90, 180, 270, 360, 450, 540, 630]

structure CompOk (c : Comp) : Prop where
  symbol : ∃ ws : List Str, (∀ w ∈ ws, Word w) ∧ c.symbol = List.intercalate [' '] ws
  rot : Orientation c.rot
  reference : c.reference ≠ [] ∧ Trimmed c.reference
  attrs : ∀ a ∈ c.attrs, WindowOk a ∨ AttrOk a
  keys : (c.attrs.map Prod.fst).Nodup

def PatternOk (p : Str) : Prop := p = [] ∨ Word p

def ShapeOk (s : Shape) : Prop :=
  PatternOk s.pattern ∧
  ((s.name = "RECTANGLE".toList ∧ s.points.length = 2) ∨ (s.name = "CIRCLE".toList ∧ s.points.length = 2) ∨
   (s.name = "ARC".toList ∧ s.points.length = 4))

/-- A schematic that can be written and read back. -/
structure WellFormed (s : Sch) : Prop where
  version : s.version ∈ ["4".toList, "4.0".toList, "4.1".toList]
  sheet : Trimmed s.sheet
  wires : ∀ w ∈ s.wires, w.pattern = []
  labels : ∀ t ∈ s.labels, LabelOk t
  comps : ∀ p ∈ s.comps, p.1 = p.2.reference ∧ CompOk p.2
  refs : (s.comps.map Prod.fst).Nodup
  directives : ∀ t ∈ s.directives, DirectiveOk t
  lines : ∀ l ∈ s.lines, PatternOk l.pattern
  shapes : ∀ h ∈ s.shapes, ShapeOk h

/-- The position texts (WINDOW) of a component and its named attributes. -/
def isWindow (a : Str × AttrVal) : Bool := match a.2 with | .text _ => true | .str _ => false

/-- The order the format imposes on the attributes of a component: position texts first. Otherwise the component is unchanged. -/
def sortAttrs (c : Comp) : Comp := { c with attrs := c.attrs.filter isWindow ++ c.attrs.filter (fun a => !isWindow a) }

/-- What a saved file shows of a schematic: everything except the ports, with the attributes of each component in file order. -/
def settled (s : Sch) : Sch := { s with ports := [], comps := s.comps.map (fun p => (p.1, sortAttrs p.2)) }

/-- Every component got a name, and no attribute has a name that starts with an underscore (these are internal, not saved). -/
def Named (s : Sch) : Prop :=
  ∀ p ∈ s.comps, p.1 ≠ [] ∧ ∀ a ∈ p.2.attrs, isWindow a = false → a.1.head? ≠ some '_'

end Spec.AscFile
