import Verif.Model.Asc
import Verif.Spec.SubFind
/-
A definition of a sub-circuit, and what it means to rename it.
-/
namespace Spec.Rename
open Model.PyStr (isSpace)
abbrev Str := List Char

/-- `line.split()`: the parts of a line between blanks. -/
def words (s : Str) : List Str := Model.Asc.words s

/-- A line that begins with .SUBCKT in any case, blanks, and the name, followed by a blank or nothing: its keyword and what follows the name. -/
structure Head (line kw name rest : Str) : Prop where
  parts : ∃ blanks, line = '.' :: (kw ++ blanks ++ name ++ rest) ∧ blanks ≠ [] ∧ ∀ x ∈ blanks, isSpace x = true
  keyword : Spec.SubFind.Same kw "SUBCKT".toList
  follows : ∀ x, rest.head? = some x → isSpace x = true

end Spec.Rename
