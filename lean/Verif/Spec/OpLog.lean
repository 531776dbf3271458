/-
The operating points in a log: sections, each with a title, a line with the names of its devices, and a line for every parameter. Independent of the model.
-/
namespace Spec.OpLog
abbrev Str := List Char

/-- Spaces and tabs. -/
def Blank (s : Str) : Prop := ∀ c ∈ s, c = ' ' ∨ c = '\t'

/-- A word: visible ASCII characters, at least one. -/
def Word (s : Str) : Prop := s ≠ [] ∧ ∀ c ∈ s, 33 ≤ c.toNat ∧ c.toNat < 127

/-- A row of the table: what its first column says, and gaps and values. -/
structure Row where
  param : Str
  colon : Bool
  cells : List (Str × Str)

def Row.label (r : Row) : Str := r.param ++ (if r.colon then [':'] else [])
def Row.values (r : Row) : List Str := r.cells.map Prod.snd
def Row.text (r : Row) : Str := r.label ++ r.cells.flatMap (fun c => c.1 ++ c.2) ++ ['\n']

/-- A row is labelled with the name of the parameter and a colon (LTspice forgets that of `Gmb`). -/
structure Row.Ok (r : Row) : Prop where
  label : Word r.param ∧ r.param.getLast? ≠ some ':' ∧ (r.colon = false → r.param = "Gmb".toList)
  cells : ∀ c ∈ r.cells, (c.1 ≠ [] ∧ Blank c.1) ∧ Word c.2

/-- The lines of a section behind its names: rows, and lines that are no rows (empty ones, or with a first column without colon). -/
inductive Item where
  | row (r : Row)
  | other (text : Str)

/-- A line that is neither a row nor a title: empty, or starting with a blank or with a word without colon. -/
structure Other (text : Str) : Prop where
  line : '\n' ∉ text ∧ '\r' ∉ text
  plain : text = [] ∨ (∃ b t, text = b :: t ∧ (b = ' ' ∨ b = '\t') ∧ '-' ∉ t) ∨
    (∃ w t, text = w ++ t ∧ Word w ∧ w.getLast? ≠ some ':' ∧ w ≠ "Gmb".toList ∧ w ≠ "---".toList ∧ (t = [] ∨ ∃ b u, t = b :: u ∧ (b = ' ' ∨ b = '\t')))

def Item.text : Item → Str
  | .row r => r.text
  | .other t => t ++ ['\n']

/-- A section: blanks around the title, the devices with the gaps before them, the items. -/
structure Section where
  lead : Str
  title : Str
  trail : Str
  devices : List (Str × Str)
  items : List Item

def Section.titleLine (s : Section) : Str := s.lead ++ "--- ".toList ++ s.title ++ " ---".toList ++ s.trail ++ ['\n']
def Section.nameLine (s : Section) : Str := "Name:".toList ++ s.devices.flatMap (fun c => c.1 ++ c.2) ++ ['\n']
def Section.text (s : Section) : Str := s.titleLine ++ s.nameLine ++ s.items.flatMap Item.text
def Section.names (s : Section) : List Str := s.devices.map Prod.snd

/-- The rows with as many values as there are devices; the others are not rows of this table. -/
def Section.rows (s : Section) : List Row := s.items.filterMap (fun i => match i with
  | .row r => if r.values.length = s.devices.length then some r else none
  | .other _ => none)

structure Section.Ok (s : Section) : Prop where
  lead : Blank s.lead
  trail : Blank s.trail
  title : '\n' ∉ s.title
  devices : s.devices ≠ [] ∧ ∀ c ∈ s.devices, (c.1 ≠ [] ∧ Blank c.1) ∧ Word c.2
  distinct : s.names.Nodup
  rows : ∀ r, .row r ∈ s.items → r.Ok ∧ r.param ≠ "Name".toList
  params : (s.rows.map Row.param).Nodup
  others : ∀ t, .other t ∈ s.items → Other t

/-- What the table says of the device in column `i`. -/
def Section.device {V : Type} (conv : Str → V) (s : Section) (i : Nat) : List (Str × V) :=
  s.rows.filterMap (fun r => r.values[i]?.map (fun v => (r.param, conv v)))

/-- The section as a dictionary. -/
def Section.table {V : Type} (conv : Str → V) (s : Section) : List (Str × List (Str × V)) :=
  s.names.zipIdx.map (fun d => (d.1, s.device conv d.2))

end Spec.OpLog
