/-
Specification vocabulary for logical lines: which brackets and quotes are open after a text, and texts in which line breaks
and comments occur only inside brackets or quotes.
-/
namespace Spec.LogicalLine

/-- The open brackets, innermost first, and whether a double quote is open. -/
abbrev Nest := List Char × Bool

/-- Nothing is open. -/
def outside : Nest := ([], false)

/-- The closing bracket of an opening one. -/
def partner : Char → Option Char
  | '{' => some '}'
  | '(' => some ')'
  | '[' => some ']'
  | _ => none

/-- What is open after one more character; `none` for a closing bracket that does not fit. -/
def next (n : Nest) (c : Char) : Option Nest :=
  if c = '{' ∨ c = '(' ∨ c = '[' then some (c :: n.1, n.2)
  else if c = '}' ∨ c = ')' ∨ c = ']' then
    match n.1 with
    | [] => none
    | o :: os => if partner o = some c then some (os, n.2) else none
  else if c = '"' then some (n.1, !n.2)
  else some n

/-- What is open after a text. -/
def nestFrom (n : Nest) : List Char → Option Nest
  | [] => some n
  | c :: cs => match next n c with
    | none => none
    | some m => nestFrom m cs

def nest (s : List Char) : Option Nest := nestFrom outside s

/-- Line breaks and semicolons occur only inside brackets or quotes, and the text is not a comment line. -/
def Unbroken (t : List Char) : Prop :=
  t.head? ≠ some '*' ∧ ∀ (a b : List Char) (c : Char), t = a ++ c :: b → (c = '\n' ∨ c = '\r' ∨ c = ';') → nest a ≠ some outside

/-- `Joined s t`: `t` is `s` without some of its continuation markers (a line break followed by a plus sign). -/
inductive Joined : List Char → List Char → Prop where
  | nil : Joined [] []
  | keep (c : Char) {s t : List Char} : Joined s t → Joined (c :: s) (c :: t)
  | drop (n : Char) {s t : List Char} : n = '\n' ∨ n = '\r' → Joined s t → Joined (n :: '+' :: s) t

end Spec.LogicalLine
