import Verif.Spec.CompLine
/-
Specification: a line folded into several, and the line of a component with single spaces.
-/
namespace Spec.NewComp

abbrev Str := List Char

/-- `head` and the items of each group written one after the other; every group but the first is on a line of its own that starts with a
plus sign. -/
def folded (head : Str) : List (List Str) → Str
  | [] => head
  | g :: gs => head ++ g.flatten ++ gs.flatMap (fun g => '\n' :: '+' :: g.flatten)

/-- The length of the lines of the groups. -/
def lengths (head : Str) : List (List Str) → List Nat
  | [] => [head.length]
  | g :: gs => (head ++ g.flatten).length :: gs.map (fun g => g.flatten.length + 1)

/-- `R1 a b 1k tc=1`, with single spaces. -/
def lineOf (letter : Char) (name : Str) (ports : List Str) (value : Str) (params : List (Str × Str)) : Spec.CompLine.Line :=
  { letter, marked := false, name, nodes := ports.map (fun p => ([' '], p)), gap := [' '], pre := [], value,
    items := params.map (fun kv => ([' '], ⟨kv.1, [], [], kv.2, []⟩)), blanks := [], comment := [] }

/-- The names under which the reference, the nodes, the value and the parameters may be given. -/
def refNames : List String := ["reference", "ref", "designator"]
def nodeNames : List String := ["ports", "p", "pins"]
def valueNames : List String := ["value", "val", "v", "value_str", "model", "Value"]
def paramNames : List String := ["params", "parameters", "param"]

end Spec.NewComp
