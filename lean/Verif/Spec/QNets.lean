import Verif.Model.QNets
/-! What it means for a pin of a QSPICE schematic to be connected. -/
namespace Spec.QNets
open Model.QNets

/-- The first label standing at the place names the net; without one, the first wire that ends there. GND is node 0. -/
inductive Wired (s : Sheet) (p : Pos) : Str → Prop
  | label (a b : List (Pos × Str)) (n : Str) : s.labels = a ++ (p, n) :: b → (∀ l ∈ a, l.1 ≠ p) →
      Wired s p (if n = "GND".toList then "0".toList else n)
  | wire (a b : List (Pos × Pos × Str)) (q r : Pos) (n : Str) : (∀ l ∈ s.labels, l.1 ≠ p) → s.wires = a ++ (q, r, n) :: b →
      (∀ w ∈ a, w.1 ≠ p ∧ w.2.1 ≠ p) → q = p ∨ r = p → Wired s p (if n = "GND".toList then "0".toList else n)

/-- No label stands there and no wire ends there. -/
def Floating (s : Sheet) (p : Pos) : Prop := (∀ l ∈ s.labels, l.1 ≠ p) ∧ ∀ w ∈ s.wires, w.1 ≠ p ∧ w.2.1 ≠ p

/-- The pins that are left to the simulator: those marked ¥ on the behavioural devices ¥, Ã, € and £. -/
def LeftOut (ref : Str) (p : Pin) : Prop := p.mark = true ∧ ∃ c r, ref = c :: r ∧ (c = '¥' ∨ c = 'Ã' ∨ c = '€' ∨ c = '£')

/-- The net given to pin `j` of component `i`. -/
def Net (out : List (List Str)) (i j : Nat) (n : Str) : Prop := ∃ l : List Str, out[i]? = some l ∧ l[j]? = some n

/-- Pin `j` of component `i` of the file. -/
def PinOf (cs : List Part) (i j : Nat) (ref : Str) (p : Pin) : Prop := ∃ c : Part, cs[i]? = some c ∧ c.ref = ref ∧ c.pins[j]? = some p

end Spec.QNets
