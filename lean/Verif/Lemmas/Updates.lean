import Verif.Model.Updates
import Verif.Spec.OrderedMap
namespace Lemmas.Updates
open Model.Updates Spec
variable {V : Type} [DecidableEq V]

/-- The identity of a record: its name and kind, and for INSTRUCTION records also the text. -/
def key (name : String) (value : V) (kind : UpdateType) : String × UpdateType × Option V :=
  (name, kind, if name = "INSTRUCTION" then some value else none)

def ukey (u : Update V) := key u.name u.value u.kind
def okey (o : Op V) := key o.name o.value o.kind

theorem hits_iff_key (n : String) (v : V) (k : UpdateType) (hk : k ≠ .invalidUpdate) (u : Update V) :
    hits n v k u = true ↔ ukey u = key n v k := by
  unfold hits ukey key
  simp only [Bool.and_eq_true, Bool.or_eq_true, beq_iff_eq, bne_iff_ne, Prod.mk.injEq]
  constructor
  · rintro ⟨⟨h1, h2⟩, h3⟩
    rcases h3 with h3 | h3
    · refine ⟨h1, h3, ?_⟩
      rw [h1]
      by_cases hi : n = "INSTRUCTION"
      · rcases h2 with h2 | h2
        · exact absurd hi h2
        · simp [hi, h2]
      · simp [hi]
    · exact absurd h3 hk
  · rintro ⟨h1, h2, h3⟩
    refine ⟨⟨h1, ?_⟩, Or.inl h2⟩
    by_cases hi : n = "INSTRUCTION"
    · right; rw [h1] at h3; simp [hi] at h3; exact h3.symm
    · exact Or.inl hi

/-- The record written for key `o` when it becomes value `v`. -/
def recOf (k : String × UpdateType × Option V) (v : Option V) : Option (Update V) :=
  v.map fun v => ⟨k.1, v, k.2.1⟩

theorem ukey_assign (n : String) (v : V) (k : UpdateType) (u : Update V)
    (h : hits n v k u = true) : ukey (assign v k u) = ukey u := by
  unfold hits at h
  simp only [Bool.and_eq_true, Bool.or_eq_true, beq_iff_eq, bne_iff_ne] at h
  obtain ⟨⟨h1, h2⟩, h3⟩ := h
  unfold ukey key assign
  simp only [Prod.mk.injEq, true_and]
  constructor
  · rcases h3 with h3 | h3
    · simp [h3]
    · simp [h3]
  · split
    · rename_i hi
      rcases h2 with h2 | h2
      · exact absurd (h1 ▸ hi) h2
      · rw [h2]
    · rfl

theorem keys_addUpdate (n : String) (v : V) (k : UpdateType) (j : List (Update V)) :
    (addUpdate n v k j).map ukey =
      if j.any (hits n v k) then j.map ukey else j.map ukey ++ [key n v k] := by
  induction j with
  | nil =>
    simp only [addUpdate, List.map_cons, List.map_nil, List.any_nil, Bool.false_eq_true, if_false,
      List.nil_append]
    unfold ukey assign; split <;> rfl
  | cons u us ih =>
    simp only [addUpdate]
    by_cases h : hits n v k u = true
    · simp [h, ukey_assign n v k u h]
    · simp only [h, Bool.false_eq_true, if_false, List.map_cons, ih, List.any_cons, Bool.false_or]
      split <;> simp

theorem mem_addUpdate_value (n : String) (v : V) (k : UpdateType) (hk : k ≠ .invalidUpdate)
    (j : List (Update V)) (hnd : (j.map ukey).Nodup) :
    addUpdate n v k j =
      if key n v k ∈ j.map ukey then j.map (fun u => if ukey u = key n v k then ⟨n, v, k⟩ else u)
      else j ++ [⟨n, v, k⟩] := by
  induction j with
  | nil => simp [addUpdate, assign, hk]
  | cons u us ih =>
    simp only [List.map_cons, List.nodup_cons] at hnd
    by_cases h : ukey u = key n v k
    · have hh := (hits_iff_key n v k hk u).mpr h
      have hmem : key n v k ∈ (u :: us).map ukey := by simp [h]
      rw [if_pos hmem]
      simp only [addUpdate, hh, if_true, List.map_cons, h]
      congr 1
      · unfold hits at hh
        simp only [Bool.and_eq_true, beq_iff_eq] at hh
        unfold assign; simp [hk, hh.1.1]
      · symm
        rw [List.map_congr_left (g := id), List.map_id]
        intro x hx
        have : ukey x ≠ key n v k := by
          intro he
          apply hnd.1
          rw [h, ← he]
          exact List.mem_map_of_mem hx
        simp [this]
    · have hh : ¬ hits n v k u = true := fun c => h ((hits_iff_key n v k hk u).mp c)
      simp only [addUpdate, hh, if_false, ih hnd.2, List.map_cons, List.mem_cons, Bool.false_eq_true]
      have h' : ¬ key n v k = ukey u := fun c => h c.symm
      simp only [h', false_or, h, if_false]
      split <;> simp

theorem journal_append (ops : List (Op V)) (o : Op V) :
    journal (ops ++ [o]) = addUpdate o.name o.value o.kind (journal ops) := by
  simp [journal]

theorem any_hits_of_key_mem (n : String) (v : V) (k : UpdateType) (j : List (Update V))
    (h : key n v k ∈ j.map ukey) : j.any (hits n v k) = true := by
  simp only [List.mem_map] at h
  obtain ⟨u, hu, he⟩ := h
  rw [List.any_eq_true]
  refine ⟨u, hu, ?_⟩
  unfold ukey key at he
  simp only [Prod.mk.injEq] at he
  obtain ⟨h1, h2, h3⟩ := he
  unfold hits
  simp only [Bool.and_eq_true, Bool.or_eq_true, beq_iff_eq, bne_iff_ne]
  refine ⟨⟨h1, ?_⟩, Or.inl h2⟩
  by_cases hi : n = "INSTRUCTION"
  · right; rw [h1] at h3; simp [hi] at h3; exact h3.symm
  · exact Or.inl hi

end Lemmas.Updates
