import Verif.Model.Hier
/-
Specification vocabulary: the value that is seen at a path of a hierarchy, found by looking only (no copies are made): a path
goes through an instance into the instance's own copy if it has one, else into the definition of its sub-circuit.
-/
namespace Spec.Hier
open Model.PyStr Model.Hier
open Model.Netlist (Str)

/-- One level: the first element with the reference. -/
def look (numeric : Str → Bool) (vals : Nat → Str) (up : Str) (down : Option (List Net → Net → Option Str)) (scope : List Net) : Net → Option Str
  | .nil => none
  | .text r => look numeric vals up down scope r
  | .bad _ => none
  | .comp ref a r =>
    if sameRef ref up then (match down with | none => some (vals a) | some _ => none) else look numeric vals up down scope r
  | .inst ref a r =>
    if sameRef ref up then
      (match down with
        | none => some (vals a)
        | some k => match definition numeric scope (vals a) with
          | none => none
          | some b => k scope b)
    else look numeric vals up down scope r
  | .opened ref a _ body _ r =>
    if sameRef ref up then (match down with | none => some (vals a) | some k => k scope body) else look numeric vals up down scope r
  | .circ name _ r => if sameRef name up then none else look numeric vals up down scope r

def peek (numeric : Str → Bool) (vals : Nat → Str) : List Str → List Net → Net → Option Str
  | [] => fun _ _ => none
  | [r] => fun scope n => look numeric vals r none (n :: scope) n
  | r :: p => fun scope n => if r.head? = some 'X' then look numeric vals r (some (peek numeric vals p)) (n :: scope) n else none

/-- The value seen at a path of the editor, letter case being irrelevant. -/
def seen (numeric : Str → Bool) (ed : Ed) (path : List Str) : Option Str :=
  peek numeric ed.store.vals (path.map upper) [] ed.net

/-- Neither path goes through the end of the other. -/
def Apart (p q : List Str) : Prop := ¬ p.map upper <+: q.map upper ∧ ¬ q.map upper <+: p.map upper

/-- All the cells of a netlist. -/
def addrs : Net → List Nat
  | .nil => []
  | .text r => addrs r
  | .bad r => addrs r
  | .comp _ a r => a :: addrs r
  | .inst _ a r => a :: addrs r
  | .opened _ a _ b _ r => a :: (addrs b ++ addrs r)
  | .circ _ b r => addrs b ++ addrs r

/-- No instance has a copy. -/
def Pure : Net → Prop
  | .nil => True
  | .text r => Pure r
  | .bad r => Pure r
  | .comp _ _ r => Pure r
  | .inst _ _ r => Pure r
  | .opened _ _ _ _ _ _ => False
  | .circ _ b r => Pure b ∧ Pure r

/-- A netlist as it is loaded: no instance was looked into, and every component is an object of its own. -/
structure Loaded (ed : Ed) : Prop where
  noCopies : Pure ed.net
  own : (addrs ed.net).Nodup
  known : ∀ a ∈ addrs ed.net, a < ed.store.fresh

inductive Op where
  | get (path : List Str)
  | set (path : List Str) (value : Str)
  deriving DecidableEq, Repr

/-- get_component_value and set_component_value as operations on the editor. -/
def step (numeric : Str → Bool) (ed : Ed) : Op → Ed
  | .get path => match getValue numeric ed path with
    | .ok (ed', _) => ed'
    | .error _ => ed
  | .set path v => (setValue numeric ed path v).1

def run (numeric : Str → Bool) (ed : Ed) (ops : List Op) : Ed := ops.foldl (step numeric) ed

/-- The states of an editor: a loaded netlist after any values were read and set. -/
def Reach (numeric : Str → Bool) (ed : Ed) : Prop := ∃ (ed0 : Ed) (ops : List Op), Loaded ed0 ∧ run numeric ed0 ops = ed

/-- Components of a definition with their values, in order, with those of definitions inside it. -/
def shown (vals : Nat → Str) : Net → List (Str × Str)
  | .nil => []
  | .text r => shown vals r
  | .bad r => shown vals r
  | .comp ref a r => (ref, vals a) :: shown vals r
  | .inst ref a r => (ref, vals a) :: shown vals r
  | .opened ref a _ _ _ r => (ref, vals a) :: shown vals r
  | .circ _ b r => shown vals b ++ shown vals r

/-- What stands in each line: nothing of interest, or the reference of a component or the name of a definition. -/
def outline : Net → List (Option Str)
  | .nil => []
  | .text r => none :: outline r
  | .bad r => none :: outline r
  | .comp ref _ r => some ref :: outline r
  | .inst ref _ r => some ref :: outline r
  | .opened ref _ _ _ _ r => some ref :: outline r
  | .circ name _ r => some name :: outline r

/-- The value last set at `q`, `x` if there is none. -/
def lastSet (q : List Str) (x : Str) : List Op → Str
  | [] => x
  | .get _ :: ops => lastSet q x ops
  | .set p v :: ops => if p.map upper = q.map upper then lastSet q v ops else lastSet q x ops

/-- A path as it is written: parts separated by colons. -/
def written : List Str → Str
  | [] => []
  | [r] => r
  | r :: p => r ++ ':' :: written p

end Spec.Hier
