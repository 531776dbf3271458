import Verif.Model.NetTree
/-
Specification vocabulary: the block structure of a netlist, as lines.
-/
namespace Spec.NetBlocks
open Model.Netlist (Str lineCommand)
open Model.NetTree (Kind kind endsControl)

/-- A line on its own, a sub-circuit definition, or a control section. -/
inductive Block where
  | line (s : Str)
  | subckt (head : Str) (body : List Block) (tail : Str)
  | control (head : Str) (body : List Str) (tail : Str)

/-- What a line is, from its first word. -/
def kindOf (s : Str) : Option Kind := (lineCommand s).map kind

mutual
/-- The lines of a block, in order. -/
def Block.lines : Block → List Str
  | .line s => [s]
  | .subckt h b t => h :: (linesOf b ++ [t])
  | .control h b t => h :: (b ++ [t])
def linesOf : List Block → List Str
  | [] => []
  | b :: bs => b.lines ++ linesOf bs
end

mutual
/-- Sub-circuits start with .SUBCKT and end with a line starting with .END, control sections go from .CONTROL to the first
line starting with .ENDC, everything else is a comment, a component, an include or another directive. -/
def Block.ok : Block → Prop
  | .line s => kindOf s = some .text ∨ kindOf s = some .comp ∨ kindOf s = some .incl ∨ kindOf s = some .other
  | .subckt h b t => kindOf h = some .subckt ∧ allOk b ∧ kindOf t = some .closing
  | .control h b t => kindOf h = some .control ∧ (∀ l ∈ b, endsControl l = false) ∧ endsControl t = true
def allOk : List Block → Prop
  | [] => True
  | b :: bs => b.ok ∧ allOk bs
end

end Spec.NetBlocks
