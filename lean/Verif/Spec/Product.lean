import Mathlib.Data.List.Forall2
/- Specification: Cartesian product of value lists in lexicographic order (first list slowest). -/
namespace Spec

def product {V : Type} : List (List V) → List (List V)
  | [] => [[]]
  | l :: ls => l.flatMap fun v => (product ls).map (v :: ·)

theorem length_product {V : Type} (ls : List (List V)) :
    (product ls).length = (ls.map List.length).foldr (· * ·) 1 := by
  induction ls with
  | nil => rfl
  | cons l ls ih =>
    simp only [product, List.map_cons, List.foldr_cons, ← ih]
    induction l with
    | nil => simp
    | cons v l ih2 => simp [List.flatMap_cons, ih2, Nat.add_mul, Nat.add_comm]

/-- A tuple is in the product iff it has one component from each list. -/
theorem mem_product {V : Type} (ls : List (List V)) (c : List V) :
    c ∈ product ls ↔ List.Forall₂ (fun v l => v ∈ l) c ls := by
  induction ls generalizing c with
  | nil => simp [product]
  | cons l ls ih =>
    simp only [product, List.mem_flatMap, List.mem_map]
    constructor
    · rintro ⟨v, hv, c', hc', rfl⟩
      exact List.Forall₂.cons hv ((ih c').mp hc')
    · intro h
      cases h with
      | cons hv hc => exact ⟨_, hv, _, (ih _).mpr hc, rfl⟩

/-- If the lists have no repeated values, no combination occurs twice. -/
theorem nodup_product {V : Type} (ls : List (List V)) (h : ∀ l ∈ ls, l.Nodup) : (product ls).Nodup := by
  induction ls with
  | nil => simp [product]
  | cons l ls ih =>
    have ih := ih (fun l hl => h l (List.mem_cons_of_mem _ hl))
    have hl := h l (List.mem_cons_self)
    clear h
    simp only [product]
    induction l with
    | nil => simp
    | cons v l ih2 =>
      rw [List.flatMap_cons]
      rw [List.nodup_cons] at hl
      refine List.nodup_append.mpr ⟨?_, ih2 hl.2, ?_⟩
      · exact List.Pairwise.map _ (fun a b hab h => hab (by injection h)) ih
      · rintro a ha b hb rfl
        simp only [List.mem_map, List.mem_flatMap] at ha hb
        obtain ⟨c, _, rfl⟩ := ha
        obtain ⟨w, hw, c', _, he⟩ := hb
        injection he with h1 _
        subst h1
        exact hl.1 hw

/-- The settings after a combination has been applied on top of `f`, key by key (a key that is swept
twice keeps the value of the last sweep). -/
def applyCombo {K V : Type} [DecidableEq K] (f : K → Option V) : List K → List V → K → Option V
  | k :: ks, v :: vs => applyCombo (fun x => if x = k then some v else f x) ks vs
  | _, _ => f

end Spec
