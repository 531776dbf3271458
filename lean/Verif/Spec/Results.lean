import Verif.Model.Results
/-
What the results of an analysis are.
-/
namespace Spec.Results
open Model.Results

variable {X : Type}

/-- The logs of the runs that were started and whose file could be read, in the order of the runs. -/
def logs (files : Nat → Option (Log X)) (sims : List (Option Nat)) : List (Log X) := sims.filterMap (fun o => o.bind files)

/-- All values of a column, log after log. -/
def values (name : Str) (part : Log X → Cols X) (ls : List (Log X)) : List (Val X) := ls.flatMap (fun l => ((part l).lookup name).getD [])

/-- The runs started, in order. -/
def runs : List (Op X) → List (Option Nat)
  | [] => []
  | .run n :: r => n :: runs r
  | _ :: r => runs r

/-- The reader found every file readable or missing. -/
def Readable (files : Files X) (found : Nat → Option (Log X)) : Prop := ∀ n, files n = .ok (found n)

/-- No column twice. -/
def Distinct (l : Log X) : Prop := (l.stepset.map Prod.fst).Nodup ∧ (l.dataset.map Prod.fst).Nodup

/-- `0, 1, 2, …` -/
def counted (n : Nat) : List (Val X) := (List.range n).map (fun (i : Nat) => .int (i : Int))

end Spec.Results
