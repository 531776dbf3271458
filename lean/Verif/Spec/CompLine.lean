import Verif.Spec.ParamList
/-
Specification: what the line of a component looks like. `word` says which characters are letters, digits or the underscore; white
space is Python's.
-/
namespace Spec.CompLine
open Spec.ParamList (Item Word Blank)

abbrev Str := List Char

/-- `R1 a b 1k tc=1 ; comment`, piece by piece: the letter, whether the mark § follows it (LTspice writes it for some components), the
rest of the designator, each node with the blanks before it, the blanks before the value, `R=` or nothing, the value, each parameter with
the blanks before it, the blanks before the comment, the comment with its semicolon. -/
structure Line where
  letter : Char
  marked : Bool
  name : Str
  nodes : List (Str × Str)
  gap : Str
  pre : Str
  value : Str
  items : List (Str × Item)
  blanks : Str
  comment : Str

def Line.designator (l : Line) : Str := l.letter :: ((if l.marked then ['§'] else []) ++ l.name)
def Line.nodesText (l : Line) : Str := l.nodes.flatMap (fun n => n.1 ++ n.2)
def Line.itemsText (l : Line) : Str := l.items.flatMap (fun i => i.1 ++ i.2.text)
def Line.text (l : Line) : Str :=
  l.designator ++ l.nodesText ++ l.gap ++ l.pre ++ l.value ++ l.itemsText ++ l.blanks ++ l.comment

/-- The kinds of components: a value, the name of a model after n to m nodes, the expression of a source, or the name of a sub-circuit. -/
inductive Shape where
  | passive
  | model (n m : Nat)
  | source
  | inst
  deriving DecidableEq

def Shape.allows : Shape → Nat → Prop
  | .passive, k => k = 2
  | .model n m, k => n ≤ k ∧ k ≤ m
  | .source, k => k = 2
  | .inst, k => 1 ≤ k ∧ k ≤ 99

/-- The components covered here. -/
def shape (c : Char) : Option Shape :=
  ([('R', .passive), ('C', .passive), ('L', .passive), ('V', .source), ('I', .source), ('D', .model 2 2), ('J', .model 3 3), ('U', .model 3 3),
    ('Z', .model 3 3), ('O', .model 4 4), ('Ö', .model 5 5), ('¥', .model 16 16), ('€', .model 32 32), ('£', .model 64 64), ('M', .model 3 4),
    ('Q', .model 3 5), ('Y', .model 2 4), ('N', .model 2 99), ('P', .model 2 99), ('X', .inst)] : List (Char × Shape)).lookup c

/-- A value for a kind of component; `after` is what follows it on the line, up to blanks. An expression in quotes or braces ends at the
last such quote or brace of the line. -/
inductive ValueOk (word : Char → Bool) (after : Str) : Shape → Str → Prop
  | plain (v : Str) (hne : v ≠ []) (hv : ∀ c ∈ v, Model.PyStr.isSpace c = false ∧ c ∉ ['"', '\'', '{', '}', ';', '\\', '=']) : ValueOk word after .passive v
  | braces (body : Str) (hR : '}' ∉ after) : ValueOk word after .passive ('{' :: body ++ ['}'])
  | double (body : Str) (hh : ∀ c, body.head? = some c → c ≠ '\'' ∧ c ≠ '{') (hR : '"' ∉ after) : ValueOk word after .passive ('"' :: body ++ ['"'])
  | single (body : Str) (hh : ∀ c, body.head? = some c → c ≠ '{') (hR : '\'' ∉ after) : ValueOk word after .passive ('\'' :: body ++ ['\''])
  | model (n m : Nat) (v : Str) (hne : v ≠ []) (hv : ∀ c ∈ v, word c = true ∨ c ∈ ['.', '-', '{', '}']) : ValueOk word after (.model n m) v
  | inst (v : Str) (hne : v ≠ []) (hv : ∀ c ∈ v, word c = true ∨ c ∈ ['.', '-', '{', '}']) : ValueOk word after .inst v
  | source (v : Str) (hne : v ≠ []) (hh : ∀ c, v.head? = some c → Model.PyStr.isSpace c = false) (hl : ∀ c, v.getLast? = some c → Model.PyStr.isSpace c = false)
      (hv : ∀ c ∈ v, c ∉ ['=', ';', '\\']) : ValueOk word after .source v

/-- `R=` in either case, with at most one blank on either side of the equal sign. -/
def Prefixed (letter : Char) (pre : Str) : Prop :=
  ∃ (a : Char) (b1 b2 : Str), pre = a :: (b1 ++ '=' :: b2) ∧ (a = letter ∨ a.toUpper = letter) ∧ b1.length ≤ 1 ∧ b2.length ≤ 1 ∧ Blank b1 ∧ Blank b2

/-- The parameters of a line: names of word characters, values without equal signs and a few other characters. -/
def ItemsOk (word : Char → Bool) (items : List (Str × Item)) : Prop :=
  ∀ i ∈ items, (i.1 ≠ [] ∧ Blank i.1) ∧ i.2.Ok ∧ (∀ c ∈ i.2.name, word c = true) ∧
    ∀ v ∈ i.2.values, ∀ c ∈ v, word c = true ∨ c ∈ ['{', '}', '(', ')', '-', '+', '*', '/', '%', '.', ',', '\'', '"'] ∨ Model.PyStr.isSpace c = true

structure Line.Ok (word : Char → Bool) (sh : Shape) (l : Line) : Prop where
  shape : shape l.letter = some sh
  name : l.name ≠ [] ∧ ∀ c ∈ l.name, word c = true
  nodes : ∀ n ∈ l.nodes, (n.1 ≠ [] ∧ Blank n.1) ∧ n.2 ≠ [] ∧ ∀ c ∈ n.2, word c = true ∨ c ∈ ['+', ',', '-', '.', '¥', '«', '»']
  count : sh.allows l.nodes.length
  gap : l.gap ≠ [] ∧ Blank l.gap
  pre : l.pre = [] ∨ (sh = .passive ∧ Prefixed l.letter l.pre)
  value : ValueOk word (l.itemsText ++ l.comment) sh l.value
  items : ItemsOk word l.items
  blanks : Blank l.blanks
  comment : l.comment = [] ∨ (l.blanks ≠ [] ∧ l.comment.head? = some ';')
  oneLine : ∀ c ∈ l.text, c ≠ '\n' ∧ c ≠ '\r'

/-- How the component is called: without the mark, or in capitals when there is none. -/
def Line.reference (l : Line) : Str := if l.marked then l.letter :: l.name else Model.PyStr.upper (l.letter :: l.name)

/-- Every blank on the line is a space, and a space comes before the value. -/
def Line.Spaced (l : Line) : Prop := (∀ c ∈ l.text, Model.PyStr.isSpace c = true → c = ' ') ∧ (l.pre = [] ∨ l.pre.getLast? = some ' ')

/-! ### Components without parameters -/

/-- `E1 a b c d 5`: the letter, the mark, the rest of the designator, the nodes with the blanks before them, the blanks before the value, the
value, and what follows it on the line. -/
structure Short where
  letter : Char
  marked : Bool
  name : Str
  nodes : List (Str × Str)
  gap : Str
  value : Str
  tail : Str

def Short.designator (l : Short) : Str := l.letter :: ((if l.marked then ['§'] else []) ++ l.name)
def Short.nodesText (l : Short) : Str := l.nodes.flatMap (fun n => n.1 ++ n.2)
def Short.text (l : Short) : Str := l.designator ++ l.nodesText ++ l.gap ++ l.value ++ l.tail
def Short.reference (l : Short) : Str := if l.marked then l.letter :: l.name else Model.PyStr.upper (l.letter :: l.name)

/-- The two kinds: the value is all that comes after n nodes, or a number after two or more nodes. -/
inductive ShortKind where
  | rest (n : Nat)
  | coupling
  deriving DecidableEq

def shortKind (c : Char) : Option ShortKind :=
  ([('E', .rest 2), ('F', .rest 2), ('G', .rest 2), ('H', .rest 2), ('S', .rest 4), ('W', .rest 3), ('A', .rest 8), ('K', .coupling)] : List (Char × ShortKind)).lookup c

def ShortKind.allows : ShortKind → Nat → Prop
  | .rest n, k => k = n
  | .coupling, k => 2 ≤ k ∧ k ≤ 99

/-- Of a controlled source, a switch or a special function any text that begins and ends visibly; of a coupling a number, perhaps with a unit. -/
def ShortKind.valueOk : ShortKind → Str → Prop
  | .rest _, v => v ≠ [] ∧ (∀ c, v.head? = some c → Model.PyStr.isSpace c = false) ∧ ∀ c, v.getLast? = some c → Model.PyStr.isSpace c = false
  | .coupling, v => ∃ b u : Str, v = b ++ u ∧ b ≠ [] ∧ (∀ c ∈ b, c.isDigit = true ∨ c ∈ ['.', 'E', 'e', '+', '-']) ∧
      (u = [] ∨ ∃ c : Char, (c ∈ ['k', 'm', 'u', 'µ', 'n', 'p', 'g', 't'] ∨ c.toLower ∈ ['k', 'm', 'u', 'µ', 'n', 'p', 'g', 't']) ∧ u = [c])

/-- Only blanks may follow where the value takes the rest of the line; a comment too after a coupling. -/
def ShortKind.tailOk : ShortKind → Str → Prop
  | .rest _, t => Blank t
  | .coupling, t => ∃ blanks comment, t = blanks ++ comment ∧ Blank blanks ∧ (comment = [] ∨ (blanks ≠ [] ∧ comment.head? = some ';'))

structure Short.Ok (word : Char → Bool) (k : ShortKind) (l : Short) : Prop where
  kind : shortKind l.letter = some k
  name : l.name ≠ [] ∧ ∀ c ∈ l.name, word c = true
  nodes : ∀ n ∈ l.nodes, (n.1 ≠ [] ∧ Blank n.1) ∧ n.2 ≠ [] ∧ ∀ c ∈ n.2, word c = true ∨ c ∈ ['+', ',', '-', '.', '¥', '«', '»']
  count : k.allows l.nodes.length
  gap : l.gap ≠ [] ∧ Blank l.gap
  value : k.valueOk l.value
  tail : k.tailOk l.tail
  oneLine : ∀ c ∈ l.text, c ≠ '\n' ∧ c ≠ '\r'

/-- A space before the value, and before the comment. -/
def Short.Spaced (l : Short) : Prop := (∀ c ∈ l.gap, c = ' ') ∧ ∀ c, l.tail.head? = some c → c = ' '

end Spec.CompLine
