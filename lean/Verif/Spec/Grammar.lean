import Verif.Model.SplitLine
/-
Specification of the lines of values accepted by split_line_into_values: a grammar. The value type is the one of the
model; nothing else of the model is used.
-/
namespace Spec.Grammar
open Model.SplitLine (Val)

/-- The three kinds of brackets. -/
def Pair (o c : Char) : Prop := (o = '(' ∧ c = ')') ∨ (o = '[' ∧ c = ']') ∨ (o = '{' ∧ c = '}')
def Opener (o : Char) : Prop := ∃ c, Pair o c
def Blank (c : Char) : Prop := c = ' ' ∨ c = '\t' ∨ c = '\r' ∨ c = '\n'
def Comma (c : Char) : Prop := c = ',' ∨ c = ';'
def Separator (c : Char) : Prop := Blank c ∨ Comma c

/-- A word: not empty, no separator, no opening bracket, and not the closing bracket of the enclosing group. -/
def Word (f : Option Char) (w : List Char) : Prop :=
  w ≠ [] ∧ ∀ c ∈ w, ¬ Separator c ∧ ¬ Opener c ∧ some c ≠ f

/-- `Line f l vs`: `l` is a sequence of words, separators and bracketed groups denoting the values `vs`; `f` is the
closing bracket of the group `l` is the contents of, if any. A blank separates; a comma after a word
separates, any other comma is a missing value; a group containing nothing holds the empty text. -/
inductive Line : Option Char → List Char → List Val → Prop
  | done {f} : Line f [] []
  | blank {f c l vs} : Blank c → Line f l vs → Line f (c :: l) vs
  | comma {f c l vs} : Comma c → Line f l vs → Line f (c :: l) (.missing :: vs)
  | lastWord {f w} : Word f w → Line f w [.text w]
  | word {f w s l vs} : Word f w → Separator s → Line f l vs → Line f (w ++ s :: l) (.text w :: vs)
  | emptyGroup {f o c l vs} : Pair o c → Line f l vs → Line f (o :: c :: l) (.group [.text []] :: vs)
  | group {f o c l vs l' vs'} : Pair o c → l ≠ [] → Line (some c) l vs → Line f l' vs' →
      Line f (o :: (l ++ c :: l')) (.group vs :: vs')

end Spec.Grammar
