import Verif.Model.PyStr
import Mathlib.Data.List.Forall2
/-
Lines that define sub-circuits and lines that name library files. Independent of the model of the search.
-/
namespace Spec.SubFind
open Model.PyStr (isSpace)
abbrev Str := List Char

/-- The same text in any mix of capital and small (ASCII) letters. -/
def Same (a b : Str) : Prop := List.Forall₂ (fun c d : Char => c.toUpper = d.toUpper) a b

/-- The line begins with any character, SUBCKT, blanks and the name: what the search takes for a definition. -/
def Resembles (name line : Str) : Prop :=
  ∃ c kw blanks given rest, line = c :: (kw ++ blanks ++ given ++ rest) ∧ c ≠ '\n' ∧ Same kw "SUBCKT".toList ∧ blanks ≠ [] ∧
    (∀ x ∈ blanks, isSpace x = true) ∧ Same given name

/-- The line is a definition of this sub-circuit: .SUBCKT, blanks, the name, and then the end or a blank. -/
def Defines (name line : Str) : Prop :=
  ∃ kw blanks given rest, line = '.' :: (kw ++ blanks ++ given ++ rest) ∧ Same kw "SUBCKT".toList ∧ blanks ≠ [] ∧
    (∀ x ∈ blanks, isSpace x = true) ∧ Same given name ∧ ∀ x, rest.head? = some x → isSpace x = true

/-- A name without the special characters of regular expressions that begins with something visible. -/
def PlainName (name : Str) : Prop := (∀ c ∈ name, c ∉ ".^$*+?{}[]\\|()".toList) ∧ ∀ c, name.head? = some c → isSpace c = false

/-- The line names a library or an include file: a dot, LIB, INC or INCLUDE, blanks, the file name, perhaps blanks, a comment and the end of
the line. -/
structure Names (line file : Str) : Prop where
  parts : ∃ kw blanks after comment eol, line = '.' :: (kw ++ blanks ++ file ++ after ++ comment ++ eol) ∧
    (Same kw "LIB".toList ∨ Same kw "INC".toList ∨ Same kw "INCLUDE".toList) ∧ blanks ≠ [] ∧ (∀ x ∈ blanks ++ after, isSpace x = true) ∧
    (comment = [] ∨ ∃ c text, comment = c :: text ∧ (c = ';' ∨ c = '*') ∧ '\n' ∉ text) ∧ (eol = [] ∨ eol = ['\n'])
  file : file ≠ [] ∧ (∀ c ∈ file, c ≠ ';' ∧ c ≠ '*' ∧ c ≠ '\n') ∧ (∀ c, file.head? = some c → isSpace c = false) ∧ ∀ c, file.getLast? = some c → isSpace c = false

end Spec.SubFind
