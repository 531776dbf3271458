import Verif.Model.FastFiles
import Verif.Spec.RunSnap
/-
Specification: what it means that a netlist file has the elements at the values of a configuration.
-/
namespace Spec.FastFiles
open Spec.EditSave Spec.Session Spec.SweepFiles
open Model.FastFiles (Elem)
open Model.FastWorst (Level)
open Model.Stepper (What)
open Model.CompLine (WordClass)
open Model.EditSave (openText)

abbrev Str := List Char

/-- The value of an element at a level; at its nominal level it is what the netlist says. -/
def valueAt (a : Elem) (l : Level) (nominal : Option Str) : Option Str :=
  match l with
  | .nom => nominal
  | .max => some a.max
  | .min => some a.min

/-- The elements have names of their own, and both values can be set. -/
structure Elements (word : Char → Bool) (els : List Elem) (ps : List Part) : Prop where
  distinct : ∀ (i j : Nat) (a b : Elem), els[i]? = some a → els[j]? = some b → SameKind a.kind b.kind → Model.PyStr.upper a.name = Model.PyStr.upper b.name → i = j
  max : ∀ a ∈ els, Sweepable word a.kind a.name a.max ps
  min : ∀ a ∈ els, Sweepable word a.kind a.name a.min ps

/-- `k`, `r` is none of the elements. -/
def Other (els : List Elem) (k : What) (r : Str) : Prop := ∀ a ∈ els, SameKind a.kind k → Model.PyStr.upper a.name ≠ Model.PyStr.upper r

/-- The text of a netlist, `ps` with the elements at the levels of `conf` and everything else as it is: opened, it shows these values; it has all the parts of `ps` and the same instructions. -/
def Says (w : WordClass) (numeric : Str → Bool) (shown : Model.Params.PV → Str) (e : Str) (els : List Elem) (ps : List Part) (conf : List Level) (text : Str) : Prop :=
  ∃ st ps', openText w numeric shown text = some st ∧ text = fileText ps' e ∧ Grown ps ps' ∧ ps'.filterMap directive = ps.filterMap directive ∧
    (∀ (i : Nat) (a : Elem) (l : Level), els[i]? = some a → conf[i]? = some l → asked a.kind a.name st = valueAt a l (given a.kind a.name ps)) ∧
    ∀ k r, Other els k r → asked k r st = given k r ps

end Spec.FastFiles
