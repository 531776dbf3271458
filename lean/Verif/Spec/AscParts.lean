import Verif.Spec.AscSession
import Verif.Spec.SchComp
import Verif.Model.AscParts
/-
Specification: sessions in which parameters of components are set too.
-/
namespace Spec.AscParts
open Model.Asc (Sch)
open Model.AscSession (Op getAttr)
open Model.AscParts (Cmd)
open Spec.SchComp

abbrev Str := List Char

/-- The names that are attributes of their own. -/
def Attribute (k : Str) : Prop := k ∈ ["Value".toList, "Value2".toList, "SpiceModel".toList, "SpiceLine".toList, "SpiceLine2".toList]
/-- The attributes that hold parameters. -/
def Holder (k : Str) : Prop := k = "SpiceLine".toList ∨ k = "SpiceLine2".toList

/-- The text of an attribute is a line of pairs, or there is none. -/
def Reads (a : Option Str) (o : Option Pairs) : Prop :=
  (a = none ∧ o = none) ∨ ∃ (s : Str) (ps : Pairs), a = some s ∧ o = some ps ∧ IsLine s ps

/-- The component has the lines `l`; the names differ, and are no names of attributes; the values are such as are considered. -/
structure HasLines (good : Str → Prop) (s : Sch) (r : Str) (l : Lines) : Prop where
  one : Reads (getAttr s r "SpiceLine".toList) l.one
  two : Reads (getAttr s r "SpiceLine2".toList) l.two
  distinct : (names l.pairs).Nodup
  plain : ∀ k ∈ names l.pairs, ¬ Attribute k
  good : ∀ p ∈ l.pairs, good p.2

/-- The settings in the order in which they are made; blanks around a value do not count. -/
def settings (kvs : List (Str × Option Str)) : List (Str × Option Str) := kvs.map (fun e => (e.1, e.2.map Model.PyStr.strip))

/-- What a session says about the parameters of a component. -/
def partsSaid (r : Str) (cs : List Cmd) : List (Str × Option Str) :=
  cs.flatMap (fun c => match c with
    | .parts r' kvs => if r' = r then settings kvs else []
    | .base _ => [])

/-- The lines after these settings. -/
def linesAfter (norm : Str → Str) (l : Lines) (kvs : List (Str × Option Str)) : Lines := kvs.foldl (fun l o => l.set norm o.1 o.2) l

/-- What may be done in the session; `L` has the lines of the components in `R` before the call. Parameters are set on components in `R`, with legal names and values; their
SpiceLine and SpiceLine2 are not replaced as a whole. -/
def Legal (norm : Str → Str) (good : Str → Prop) (R : Str → Prop) : (Str → Lines) → List Cmd → Prop
  | _, [] => True
  | L, .base op :: cs => (Spec.AscSession.ArgsOk op ∧ ∀ r k v, R r → Holder k → op ≠ .attr r k v) ∧ Legal norm good R L cs
  | L, .parts r kvs :: cs => (R r ∧ (∀ e ∈ kvs, ¬ Attribute e.1) ∧ LegalAll norm good (L r) (settings kvs)) ∧
      Legal norm good R (fun x => if x = r then linesAfter norm (L r) (settings kvs) else L x) cs

/-- The other calls of the session, in order. -/
def others (cs : List Cmd) : List Op := cs.filterMap (fun c => match c with | .base op => some op | .parts _ _ => none)

/-- Removing instructions does not touch a directive with parameters, at any time. -/
def KeepsAll (norm : Str → Str) : Sch → List Cmd → Prop
  | _, [] => True
  | s, c :: cs => (∀ op, c = .base op → Spec.AscSession.Keeps s op) ∧ ∀ s', Model.AscParts.step norm s c = some s' → KeepsAll norm s' cs

end Spec.AscParts
