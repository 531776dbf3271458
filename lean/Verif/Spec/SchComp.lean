import Verif.Spec.ParamLine
import Mathlib.Data.List.Basic
/-
Specification: the parameters of a component of an LTspice schematic, kept as texts `name=value` in its SpiceLine and SpiceLine2.
-/
namespace Spec.SchComp
open Spec.ParamLine

abbrev Pairs := List (Str × Str)

def names (ps : Pairs) : List Str := ps.map Prod.fst

/-- A line of pairs: the text, and the pairs it stands for, in order. The pairs are separated by blanks and can be written in any of the ways of
the grammar of `.param` (Spec.ParamLine); there is at least one, and names differ. -/
structure IsLine (s : Str) (ps : Pairs) : Prop where
  parts : ∃ (items : List Item) (tail : Str), ' ' :: s = items.flatMap Item.text ++ tail ∧ (∀ i ∈ items, i.Ok) ∧ Blank tail ∧
    ps = items.map (fun i => (i.name, i.value))
  distinct : (names ps).Nodup
  some : ps ≠ []

/-- `a=1 b=2` -/
def lineText (ps : Pairs) : Str := List.intercalate [' '] (ps.map (fun p => p.1 ++ '=' :: p.2))

/-- Giving a name a value: in its place, or at the end. -/
def assignPair (k v : Str) (ps : Pairs) : Pairs :=
  if k ∈ names ps then ps.map (fun p => if p.1 = k then (k, v) else p) else ps ++ [(k, v)]

/-- Removing a name. -/
def removePair (k : Str) (ps : Pairs) : Pairs := ps.filter (fun p => p.1 ≠ k)

/-- How the texts of values are read. `read` is the value a text stands for (try_convert_value), `norm` the text in which that value is
written again, `good` the values considered: they stand for themselves when written again. -/
structure Texts (β : Type) where
  norm : Str → Str
  read : Str → β
  good : Str → Prop
  value : ∀ v, good v → Value v
  again : ∀ v, good v → good (norm v)
  same : ∀ v, good v → read (norm v) = read v

/-- The two lines of a component, each there or not. -/
structure Lines where
  one : Option Pairs
  two : Option Pairs
  deriving DecidableEq

def Lines.pairs (l : Lines) : Pairs := l.one.getD [] ++ l.two.getD []

/-- The pairs as they are written again. -/
def again (norm : Str → Str) (ps : Pairs) : Pairs := ps.map (fun p => (p.1, norm p.2))

/-- One line after a parameter it holds was set, or removed; lines without it stay. -/
def inLine (norm : Str → Str) (k : Str) (v : Option Str) (ps : Pairs) : Pairs :=
  if k ∈ names ps then
    match v with
    | some v => assignPair k v (again norm ps)
    | none => removePair k (again norm ps)
  else ps

/-- Setting (or removing) a parameter: in the line that holds it; a new one at the end of SpiceLine. -/
def Lines.set (norm : Str → Str) (k : Str) (v : Option Str) (l : Lines) : Lines :=
  if k ∈ names l.pairs then ⟨l.one.map (inLine norm k v), l.two.map (inLine norm k v)⟩
  else match v with
    | some v => ⟨some (again norm (l.one.getD []) ++ [(k, v)]), l.two⟩
    | none => l

/-- What may be asked: any new value; the removal of a parameter that is not alone in its line. -/
def Legal (good : Str → Prop) (l : Lines) (k : Str) : Option Str → Prop
  | some v => Name k ∧ good v
  | none => k ∈ names l.pairs ∧ ∀ ps : Pairs, (l.one = some ps ∨ l.two = some ps) → k ∈ names ps → 2 ≤ ps.length

def LegalAll (norm : Str → Str) (good : Str → Prop) : Lines → List (Str × Option Str) → Prop
  | _, [] => True
  | l, (k, v) :: ops => Legal good l k v ∧ LegalAll norm good (l.set norm k v) ops

/-- The value of a parameter after a history of settings and removals, given the one at the start. -/
def valueAfter {β : Type} (read : Str → β) (k : Str) (start : Option β) : List (Str × Option Str) → Option β
  | [] => start
  | (k', v) :: ops => valueAfter read k (if k' = k then v.map read else start) ops

end Spec.SchComp
