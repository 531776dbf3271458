import Verif.Spec.QSession
import Verif.Spec.QComp
import Verif.Model.QParts
/-
Specification: sessions on QSPICE sheets in which parameters of components are set too.
-/
namespace Spec.QParts
open Model.Qsch (Tag)
open Model.QSession (Op Sch isTag isComp getValue)
open Model.QParts (Cmd symbolTexts)
open Spec.QComp (Shows)
open Spec.SchComp (Pairs names)

abbrev Str := List Char

/-- The symbol of the component: the texts stand before the pins. -/
def TextsBeforePins (c : Tag) : Prop :=
  ∀ y ∈ c.items, ∃ a b : List Tag, y.items = a ++ b ∧ (∀ t ∈ a, t.tokens.head? ≠ some "pin".toList) ∧ ∀ t ∈ b, t.tokens.head? ≠ some "text".toList

/-- The text does not start with the two characters QSPICE marks a number with. -/
def NotHex (t : Str) : Prop := t.take 2 ≠ ['0', 'x']

/-- The component is on the sheet, and its texts after the reference and the value hold the pairs `ps`, the names of which differ. -/
structure HasPairs (s : Sch) (r : Str) (ps : Pairs) : Prop where
  shows : ∃ (ref val : Str) (ts : List Str) (pss : List Pairs), symbolTexts s r = some (ref :: val :: ts) ∧ List.Forall₂ Shows ts pss ∧ pss.flatten = ps ∧ ∀ t ∈ ts, NotHex t
  distinct : (names ps).Nodup
  order : ∀ c, s.items.find? (isComp r) = some c → TextsBeforePins c

/-- What a session says about the parameters of a component. -/
def partsSaid (r : Str) (cs : List Cmd) : List (Str × Option Str) :=
  cs.filterMap (fun c => match c with
    | .part _ _ r' k v => if r' = r then some (k, v) else none
    | .base _ => none)

/-- The other calls of the session, in order. -/
def others (cs : List Cmd) : List Op := cs.filterMap (fun c => match c with | .base op => some op | .part _ _ _ _ _ => none)

/-- The parameters of components a session names. -/
def Named (cs : List Cmd) (r k : Str) : Prop := ∃ x y v, Cmd.part x y r k v ∈ cs

/-- Legal calls. Parameters are set on components in `R`; the name of a parameter is a word (not one that starts like a number of QSPICE), and does not occur in a value given to the component. -/
def Legal (R : Str → Prop) (K : Str → Str → Prop) : Cmd → Prop
  | .base op => Spec.QSession.ArgsOk op ∧ ∀ r w, op = .value r w → ∀ k, K r k → ¬ k <:+: w
  | .part _ _ r k v => R r ∧ K r k ∧ Spec.ParamLine.Name k ∧ NotHex k ∧ ∀ w, v = some w → Spec.ParamLine.Value w ∧ Spec.QSession.Plain w

/-- Nor in the value at the start. -/
def Apart (K : Str → Str → Prop) (s : Sch) : Prop := ∀ r k w, K r k → getValue s r = some w → ¬ k <:+: w

/-- Removing instructions does not touch a text with parameters, at any time. -/
def KeepsAll : Sch → List Cmd → Prop
  | _, [] => True
  | s, c :: cs => (∀ op, c = .base op → Spec.QSession.Keeps (Model.QSession.texts s.items) op) ∧ ∀ s', Model.QParts.step s c = some s' → KeepsAll s' cs

end Spec.QParts
