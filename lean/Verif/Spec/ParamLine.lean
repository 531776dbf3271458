import Verif.Model.PyStr
/-
Specification: what a `.param` directive is and what its parameters are, without any parsing.
-/
namespace Spec.ParamLine
open Model.PyStr (isSpace upper)

abbrev Str := List Char

/-- only white space -/
def Blank (s : Str) : Prop := ∀ c ∈ s, isSpace c = true

/-- `name = value`, with the white space in front of it. -/
structure Item where
  gap : Str
  name : Str
  sep : Str
  value : Str
  deriving DecidableEq

def Item.text (i : Item) : Str := i.gap ++ i.name ++ i.sep ++ i.value

/-- letters, digits and underscores -/
def NameChar (c : Char) : Prop := c.isAlpha = true ∨ c.isDigit = true ∨ c = '_'
def Name (n : Str) : Prop := n ≠ [] ∧ ∀ c ∈ n, NameChar c

/-- characters a number can start with -/
def NumChar (c : Char) : Prop := c.isDigit = true ∨ c = '.' ∨ c = '+' ∨ c = '-' ∨ c = 'E' ∨ c = 'e'

/-- `=` with optional white space, or white space with a space in it -/
def Sep (s : Str) : Prop := (∃ a b : Str, s = a ++ '=' :: b ∧ Blank a ∧ Blank b) ∨ (Blank s ∧ ' ' ∈ s)

/-- An expression in braces, a quoted text, or a number followed by a unit. -/
def Value (v : Str) : Prop :=
  (∃ b : Str, v = '{' :: b ++ ['}'] ∧ '}' ∉ b) ∨ (∃ b : Str, v = '"' :: b ++ ['"'] ∧ '"' ∉ b) ∨
  (∃ n u : Str, v = n ++ u ∧ n ≠ [] ∧ (∀ c ∈ n, NumChar c) ∧ ∀ c ∈ u, c.isAlpha = true ∨ c = '%')

def Item.Ok (i : Item) : Prop := i.gap ≠ [] ∧ Blank i.gap ∧ Name i.name ∧ Sep i.sep ∧ Value i.value

/-- A whole directive: the keyword, the parameters, and a rest (blanks or a comment) in which no value can start. -/
structure Line where
  kw : Str
  items : List Item
  tail : Str
  deriving DecidableEq

def Line.text (l : Line) : Str := l.kw ++ l.items.flatMap Item.text ++ l.tail

/-- The name could be taken for a number: it starts with a digit or with the letter E. -/
def NumberLike (n : Str) : Prop := ∃ c, n.head? = some c ∧ NumChar c

structure Line.Ok (l : Line) : Prop where
  keyword : upper l.kw = ".PARAM".toList
  items : ∀ i ∈ l.items, i.Ok
  first : ∀ i, l.items.head? = some i → ¬ NumberLike i.name
  rest : ∀ c ∈ l.tail, ¬ NumChar c ∧ c ≠ '{' ∧ c ≠ '"'
  stop : ∀ c, l.tail.head? = some c → ¬ NameChar c ∧ c ≠ '%'

/-- The same name, whatever the letter case. -/
def Same (p q : Str) : Prop := upper p = upper q
instance (p q : Str) : Decidable (Same p q) := inferInstanceAs (Decidable (_ = _))

/-- The value of a parameter in a list of items: that of the first with this name. -/
def find (p : Str) : List Item → Option Str
  | [] => none
  | i :: l => if Same i.name p then some i.value else find p l

/-- Giving the first item with this name a new value. -/
def assign (p v : Str) : List Item → List Item
  | [] => []
  | i :: l => if Same i.name p then { i with value := v } :: l else i :: assign p v l

/-- A document: texts that hold no parameters (`other`), and directives, both with what else belongs to the text (`α`). -/
inductive Dir (α : Type) where
  | other (a : α)
  | params (a : α) (l : Line)

def Dir.items {α : Type} : Dir α → List Item
  | .other _ => []
  | .params _ l => l.items

/-- The value of a parameter in a document: that of its first definition. -/
def value {α : Type} (p : Str) (d : List (Dir α)) : Option Str := find p (d.flatMap Dir.items)

/-- Giving it a new value where it is defined first. -/
def update {α : Type} (p v : Str) : List (Dir α) → List (Dir α)
  | [] => []
  | .other a :: d => .other a :: update p v d
  | .params a l :: d =>
    if (find p l.items).isSome then .params a { l with items := assign p v l.items } :: d else .params a l :: update p v d

end Spec.ParamLine
