import Verif.Spec.NetBlocks
/-
The control sections of a netlist file.
-/
namespace Spec.Control
open Spec.NetBlocks
open Model.Netlist (Str)

/-- The text of a control section: its lines from .CONTROL to .ENDC without blanks at their ends. -/
def sectionText (lines : List Str) : Str := (lines.map (fun l => Model.PyStr.rstrip l ++ ['\n'])).flatten

/-- The control sections of a file, in order; those inside sub-circuits belong to these. -/
def sections : List Block → List Str
  | [] => []
  | .control h b t :: bs => sectionText (h :: (b ++ [t])) :: sections bs
  | _ :: bs => sections bs

end Spec.Control
