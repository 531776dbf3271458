/-
The data section of an ASCII RAW file. Independent of the model.
-/
namespace Spec.RawAscii
abbrev Str := List Char

/-- Blanks: what may surround a number in a line. -/
def Blank (s : Str) : Prop := ∀ c ∈ s, c = ' ' ∨ c = '\t' ∨ c = '\r'

/-- A number as text: visible ASCII characters, at least one. -/
structure IsNumber (s : Str) : Prop where
  some : s ≠ []
  ascii : ∀ c ∈ s, 33 ≤ c.toNat ∧ c.toNat < 127

/-- A line with a number: empty lines before it, blanks around it. -/
structure Line where
  empties : List Str
  lead : Str
  number : Str
  trail : Str

/-- A well-formed line. -/
structure Line.Ok (l : Line) : Prop where
  empties : ∀ e ∈ l.empties, Blank e
  lead : Blank l.lead
  trail : Blank l.trail
  number : IsNumber l.number

/-- The lines before it, all with their line feeds. -/
def Line.before (l : Line) : Str := l.empties.flatMap (fun e => e ++ ['\n'])

/-- A line that only has a number. -/
def Line.text (l : Line) : Str := l.before ++ l.lead ++ l.number ++ l.trail ++ ['\n']

/-- The first line of a point: its index, a tab, the number; `pad` are the blanks before the index. -/
def Line.first (pad : Str) (index : Str) (l : Line) : Str := l.before ++ pad ++ index ++ '\t' :: (l.lead ++ l.number ++ l.trail ++ ['\n'])

/-- A point: its index as text, blanks before it, and the lines of its variables. -/
structure Point where
  pad : Str
  index : Str
  head : Line
  tail : List Line

def Point.text (p : Point) : Str := p.head.first p.pad p.index ++ p.tail.flatMap Line.text

/-- The numbers of a point. -/
def Point.numbers (p : Point) : List Str := p.head.number :: p.tail.map Line.number

/-- A well-formed point of a file with `k` variables. -/
structure Point.Ok (k : Nat) (p : Point) : Prop where
  vars : p.tail.length + 1 = k
  pad : Blank p.pad
  index : p.index ≠ [] ∧ ∀ c ∈ p.index, c.isDigit = true
  head : p.head.Ok
  tail : ∀ l ∈ p.tail, l.Ok

/-- The data section: the points one after the other. -/
def dataText (ps : List Point) : Str := ps.flatMap Point.text

/-- What may follow the data: nothing, or an empty line (with or without line feed) and whatever comes after it. -/
def Tail (rest : Str) : Prop := ∃ b, Blank b ∧ (rest = b ∨ ∃ more, rest = b ++ '\n' :: more)

end Spec.RawAscii
