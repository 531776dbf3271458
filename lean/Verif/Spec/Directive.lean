/-
Specification: what a user means by an analysis directive, in words of the SPICE language only.
-/
namespace Spec.Directive

/-- The five analysis directives that exclude each other. -/
def analyses : List String := [".AC", ".DC", ".TRAN", ".NOISE", ".TF"]

/-- A line is an analysis directive when its first word, letter case ignored, is one of them. -/
def IsAnalysis (line : List Char) : Prop :=
  ∃ blanks word rest : List Char, line = blanks ++ word ++ rest ∧ (∀ c ∈ blanks, c = ' ' ∨ c = '\t') ∧
    (∃ a ∈ analyses, word.map Char.toUpper = a.toList) ∧
    (rest = [] ∨ ∃ c r, rest = c :: r ∧ (c = ' ' ∨ c = '\t' ∨ c = '\r' ∨ c = '\n'))

end Spec.Directive
