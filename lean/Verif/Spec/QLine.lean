import Verif.Spec.QNetlist
import Verif.Spec.QSession
/-
Specification: what a text of an edited sheet contributes to the netlist.
-/
namespace Spec.QLine

abbrev Str := List Char

/-- What an instruction writes into the netlist: its lines, without the mark in front and without blanks at the ends of each; a comment writes nothing. -/
def linesOf (q : Model.ParamRegex.QText) : Str :=
  if q.comment then [] else ((Model.QNetlist.splitBreaks (Spec.QSession.bare q.text)).map (fun l => Model.PyStr.strip l ++ ['\n'])).flatten

end Spec.QLine
