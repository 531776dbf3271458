import Verif.Model.LibPath
import Verif.Spec.Files
/-
Specification vocabulary for library paths.
-/
namespace Spec.LibPath
open Model.LibPath
open Spec.Files (Offers)

/-- `r` is what the first of the containers that has the file offers. -/
def FirstOffer (w : World) (f : File) (containers : List Str) (r : Found) : Prop :=
  ∃ before after : List Str, containers = before ++ r.1 :: after ∧ Offers f.1 f.2 (w.container r.1) r.2 ∧
    ∀ x ∈ before, ∀ h, ¬ Offers f.1 f.2 (w.container x) h

/-- None of the containers has the file. -/
def Nowhere (w : World) (f : File) (containers : List Str) : Prop := ∀ x ∈ containers, ∀ h, ¬ Offers f.1 f.2 (w.container x) h

/-- The line in capitals and without blanks around it ends with this, or has it somewhere. -/
def Ends (l e : Str) : Prop := ∃ t : Str, Model.PyStr.upper (Model.PyStr.strip l) = t ++ e
def Mentions (l e : Str) : Prop := ∃ a b : Str, Model.PyStr.upper (Model.PyStr.strip l) = a ++ e ++ b

/-- A comment line of a netlist names its program: LTspice and QSPICE write the schematic file at the end of the line, the others their name. Letter case and
blanks around the line do not matter. -/
def Says (l : Str) : Tool → Prop
  | .ltspice => l.head? = some '*' ∧ Ends l ".ASC".toList
  | .qspice => l.head? = some '*' ∧ Ends l ".QSCH".toList
  | .xyce => l.head? = some '*' ∧ Mentions l "XYCE".toList ∧ ¬ Ends l ".ASC".toList ∧ ¬ Ends l ".QSCH".toList
  | .ngspice => l.head? = some '*' ∧ Mentions l "NGSPICE".toList ∧ ¬ Mentions l "XYCE".toList ∧ ¬ Ends l ".ASC".toList ∧ ¬ Ends l ".QSCH".toList

/-- The class an editor class is derived from. -/
def parent : Cls → Option Cls
  | .base => none
  | .spiceFile => some .base
  | .spice => some .spiceFile
  | .schematic => some .base
  | .asc => some .schematic
  | .qsch => some .schematic

end Spec.LibPath
