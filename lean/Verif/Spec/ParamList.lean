import Verif.Model.PyStr
/-
Specification: what a list of parameters looks like on a component line. Only the notion of white space is taken from the
model of Python's strings.
-/
namespace Spec.ParamList

abbrev Str := List Char

/-- A piece of a word: an ordinary character, a quoted text, or an expression in braces. -/
inductive Piece : Str → Prop
  | plain (c : Char) (hs : Model.PyStr.isSpace c = false) (hc : c ∉ [',', '=', '{', '}', '"', '\''] ) : Piece [c]
  | quoted (q : Char) (body : Str) (hq : q = '"' ∨ q = '\'') (hb : ∀ c ∈ body, c ≠ q ∧ c ≠ '{' ∧ c ≠ '}') : Piece (q :: body ++ [q])
  | braces (body : Str) (hb : ∀ c ∈ body, c ∉ ['{', '}', '"', '\''] ) : Piece ('{' :: body ++ ['}'])

/-- A word: one or more pieces. It may contain blanks, commas and equal signs, within quotes or braces only. -/
def Word (w : Str) : Prop := ∃ ps : List Str, ps ≠ [] ∧ (∀ p ∈ ps, Piece p) ∧ w = ps.flatten

def Blank (s : Str) : Prop := ∀ c ∈ s, Model.PyStr.isSpace c = true

/-- `name = first, second, …` with blanks around the equal sign and after the commas. -/
structure Item where
  name : Str
  b1 : Str
  b2 : Str
  first : Str
  more : List (Str × Str)

def Item.text (it : Item) : Str :=
  it.name ++ it.b1 ++ '=' :: it.b2 ++ it.first ++ it.more.flatMap (fun bv => ',' :: bv.1 ++ bv.2)

/-- The values of an item. -/
def Item.values (it : Item) : List Str := it.first :: it.more.map Prod.snd

structure Item.Ok (it : Item) : Prop where
  name : Word it.name
  b1 : Blank it.b1
  b2 : Blank it.b2
  first : Word it.first
  more : ∀ bv ∈ it.more, Blank bv.1 ∧ Word bv.2

/-- The text of a list of items, each followed by blanks. -/
def textOf (l : List (Item × Str)) : Str := l.flatMap (fun ib => ib.1.text ++ ib.2)

/-- Items are separated by at least one blank; the last one may be followed by blanks. -/
def Separated : List (Item × Str) → Prop
  | [] => True
  | [(it, b)] => it.Ok ∧ Blank b
  | (it, b) :: x :: l => it.Ok ∧ Blank b ∧ b ≠ [] ∧ Separated (x :: l)

/-- The values of the last item of that name. -/
def lastValues (k : Str) (l : List Item) : Option (List Str) := (l.reverse.find? (fun it => it.name = k)).map Item.values

end Spec.ParamList
