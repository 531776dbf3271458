import Verif.Spec.AscFile
import Verif.Spec.Directive
/-
Specification: what a user means by the simulation commands of a schematic. Only the data types and the notion of white space are
taken from the model.
-/
namespace Spec.AscInstr
open Model.Asc (Text Sch Hor Ver)
open Model.PyStr (isSpace upper lower)
open Spec.AscFile (Word)

abbrev Str := List Char

/-- `w` is the first word of `s`. -/
def FirstWord (s w : Str) : Prop :=
  ∃ blanks rest : Str, s = blanks ++ w ++ rest ∧ (∀ c ∈ blanks, isSpace c = true) ∧ Word w ∧
    (rest = [] ∨ ∃ c r, rest = c :: r ∧ isSpace c = true)

/-- The text starts with one of the analysis commands, whatever the letter case. -/
def Command (s : Str) : Prop := ∃ w, FirstWord s w ∧ ∃ a ∈ Spec.Directive.analyses, upper w = a.toList

/-- A text of the schematic that selects an analysis. -/
def Simulates (t : Text) : Prop := t.type ≠ .comment ∧ Command t.text

/-- At most one text of the schematic selects an analysis. -/
def AtMostOne (l : List Text) : Prop :=
  ∀ (a b c : List Text) (t u : Text), l = a ++ t :: b ++ u :: c → ¬ (Simulates t ∧ Simulates u)

/-- The comments, in order. -/
def comments (l : List Text) : List Text := l.filter (fun t => t.type == .comment)

/-- The six alignment words of LTspice with what they mean; a V in front makes the text vertical. -/
def alignments : List (List Char × Hor × Ver × Bool) :=
  [("Left".toList, .left, .center, true), ("Center".toList, .center, .center, true), ("Right".toList, .right, .center, true),
   ("Top".toList, .center, .top, true), ("Bottom".toList, .center, .bottom, true), ("Invisible".toList, .center, .center, false)]

end Spec.AscInstr
