import Verif.Model.SweepFiles
import Verif.Spec.EditSave
/-
Specification: the edits made by a program.
-/
namespace Spec.SweepFiles
open Model.SweepFiles (Act)
open Model.EditSave (Op El getValue getParameter)
open Model.Stepper (What)
open Spec.EditSave

abbrev Str := List Char

/-- What an editor answers when it is asked for the value of a parameter, of a component, or of the model of an element. -/
def asked (k : What) (r : Str) (els : List El) : Option Str :=
  match k with
  | .param => getParameter r els
  | _ => getValue r els

/-- What the netlist says about it. -/
def given (k : What) (r : Str) (ps : List Part) : Option Str :=
  match k with
  | .param => paramOf r ps
  | _ => first r ps

/-- Both are parameters, or both are not. -/
def SameKind (a b : What) : Prop := a = .param ↔ b = .param

/-- The value may be swept to `v`. -/
def Sweepable (word : Char → Bool) (k : What) (r v : Str) (ps : List Part) : Prop :=
  match k with
  | .param => ParamSet r v
  | _ => Settable word r v ps

/-- The edits among the actions. -/
def edits (as : List Act) : List Op := as.filterMap (fun a => match a with | .edit op => some op | .run => none)

end Spec.SweepFiles
