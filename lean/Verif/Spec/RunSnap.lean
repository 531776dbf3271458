import Verif.Model.RunSnap
import Verif.Spec.Session
import Verif.Spec.SweepFiles
/-
Specification: what the actions of a program do to the netlist, as a list of parts: the netlist of the file (`base`) and the one that is edited (`now`).
-/
namespace Spec.RunSnap
open Spec.EditSave Spec.Session Spec.SweepFiles
open Model.RunSnap (Act Elem)
open Model.Stepper (What)

abbrev Str := List Char

inductive Step where
  | change (c : Change)
  | run
  | reset

def Step.act : Step → Act
  | .change c => .op c.op
  | .run => .run
  | .reset => .reset

structure Nets where
  base : List Part
  now : List Part

/-- Changes are changes of `now`; after saving and opening again the saved netlist is the one of the file; a reset goes back to the file. -/
def after (n : Nets) : Step → Nets
  | .change (.edit .reopen) => ⟨n.now, n.now⟩
  | .change c => ⟨n.base, changed n.now c⟩
  | .run => n
  | .reset => ⟨n.base, n.base⟩

/-- Every change can be made to the netlist as it is by then. -/
def Program (word : Char → Bool) (name : Str → Prop) : Nets → List Step → Prop
  | _, [] => True
  | n, s :: ss => (match s with | .change c => Allowed word name n.now c | _ => True) ∧ Program word name (after n s) ss

/-- The number of runs. -/
def runs (ss : List Step) : Nat := (ss.filter (fun s => match s with | .run => true | _ => false)).length

/-- The netlist of the nominal run: the recorded instructions, the parameter `run` and the measurement. -/
def nominal (text : Int → Str) (ps : List Part) (setup : List Change) : List Part :=
  changed (changed (setup.foldl changed ps) (.edit (.param "run".toList (text (-1))))) (.instruct ".meas runm PARAM {run}".toList)

/-- The recorded instructions can be played: none of them saves and opens again. -/
def Setup (word : Char → Bool) (name : Str → Prop) (ps : List Part) (setup : List Change) : Prop :=
  Spec.Session.Session word name ps setup ∧ ∀ c ∈ setup, ∀ o, c = .edit o → o ≠ .reopen

/-- The elements have names of their own, none is the parameter `run`, and both values can be set. -/
structure Elements (word : Char → Bool) (els : List Elem) (ps : List Part) : Prop where
  distinct : ∀ (i j : Nat) (a b : Elem), els[i]? = some a → els[j]? = some b → SameKind a.kind b.kind → Model.PyStr.upper a.name = Model.PyStr.upper b.name → i = j
  notRun : ∀ a ∈ els, a.kind = .param → Model.PyStr.upper a.name ≠ Model.PyStr.upper "run".toList
  on : ∀ a ∈ els, Sweepable word a.kind a.name a.on ps
  off : ∀ a ∈ els, Sweepable word a.kind a.name a.off ps

/-- `k`, `r` is none of the elements, nor the parameter `run`. -/
def Other (els : List Elem) (k : What) (r : Str) : Prop :=
  (∀ a ∈ els, SameKind a.kind k → Model.PyStr.upper a.name ≠ Model.PyStr.upper r) ∧ (k = .param → Model.PyStr.upper "run".toList ≠ Model.PyStr.upper r)

end Spec.RunSnap
