import Verif.Model.LogData
import Mathlib.Data.List.Basic
import Mathlib.Algebra.Order.Field.Rat
import Mathlib.Algebra.Order.Field.Basic
import Mathlib.Tactic.Ring
import Mathlib.Tactic.Linarith
import Mathlib.Tactic.FieldSimp
import Mathlib.Tactic.Positivity
/-
C21, C52, C53: queries on and export of the measurement tables.
-/
set_option linter.unusedSectionVars false
namespace Props.LogData
open Model.LogData

variable {V R : Type} [DecidableEq V]

theorem dict_get {W : Type} (d : Dict W) (k : Name) : d.get k = d.lookup k := by
  induction d with
  | nil => rfl
  | cons e d ih =>
    simp only [Dict.get, List.find?, List.lookup] at *
    by_cases h : e.1 = k
    · simp [h]
    · have h' : ¬ (k = e.1) := fun x => h x.symm
      have e1 : (e.1 == k) = false := by simpa using h
      have e2 : (k == e.1) = false := by simpa using h'
      rw [e1, e2]; exact ih

theorem column_lookup (d : Data V) (p : Name) : d.column p = (d.stepset ++ d.dataset).lookup (lower p) := by
  rw [Data.column, dict_get, dict_get, List.lookup_append]
  cases d.stepset.lookup (lower p) <;> rfl

theorem positions_mem (v : V) : ∀ (col : List V) (i k : Nat),
    k ∈ positions v i col ↔ ∃ j, k = i + j ∧ col[j]? = some v := by
  intro col
  induction col with
  | nil => intro i k; simp [positions]
  | cons a as ih =>
    intro i k
    have key : (∃ j, k = i + j ∧ (a :: as)[j]? = some v) ↔ (k = i ∧ a = v) ∨ (∃ j, k = i + 1 + j ∧ as[j]? = some v) := by
      constructor
      · rintro ⟨j, hj, hv⟩
        cases j with
        | zero => left; simp at hv; exact ⟨by omega, hv⟩
        | succ j => right; exact ⟨j, by omega, by simpa using hv⟩
      · rintro (⟨rfl, rfl⟩ | ⟨j, hj, hv⟩)
        · exact ⟨0, by simp⟩
        · exact ⟨j + 1, by omega, by simpa using hv⟩
    rw [key, positions]
    by_cases h : a = v
    · rw [if_pos h, List.mem_cons, ih]; simp [h]
    · rw [if_neg h, ih]; simp [h]

theorem positions_sorted (v : V) : ∀ (col : List V) (i : Nat), (positions v i col).Pairwise (· < ·) := by
  intro col
  induction col with
  | nil => intro i; simp [positions]
  | cons a as ih =>
    intro i
    rw [positions]
    by_cases h : a = v
    · rw [if_pos h, List.pairwise_cons]
      refine ⟨?_, ih _⟩
      intro k hk
      obtain ⟨j, hj, _⟩ := (positions_mem v as (i + 1) k).mp hk
      omega
    · rw [if_neg h]; exact ih _

/-- The condition `(p, v)` holds at step `i`: the step variable called `p` (any letter case), or the measurement if
there is no such step variable, has the value `v` there. -/
def Holds (conv : R → V) (d : Data V) (c : Name × R) (i : Nat) : Prop :=
  ∃ col, (d.stepset ++ d.dataset).lookup (lower c.1) = some col ∧ col[i]? = some (conv c.2)

/-- The name of the condition is known. -/
def Known (d : Data V) (c : Name × R) : Prop := ∃ col, (d.stepset ++ d.dataset).lookup (lower c.1) = some col

theorem stepsEq_spec (conv : R → V) (d : Data V) (p : Name) (v : R) :
    (∀ cs, stepsEq conv d p v = some cs → Known d (p, v) ∧ cs.Pairwise (· < ·) ∧ ∀ i, i ∈ cs ↔ Holds conv d (p, v) i) ∧
    (stepsEq conv d p v = none → ¬ Known d (p, v)) := by
  unfold stepsEq Holds Known
  rw [column_lookup]
  cases h : (d.stepset ++ d.dataset).lookup (lower p) with
  | none => simp
  | some col =>
    refine ⟨?_, by simp⟩
    intro cs hcs
    simp only [Option.some.injEq] at hcs
    subst hcs
    refine ⟨⟨col, rfl⟩, positions_sorted _ _ _, ?_⟩
    intro i
    rw [positions_mem]
    simp

theorem stepsLoop_spec (conv : R → V) (d : Data V) : ∀ (conds : List (Name × R)) (cur : List Nat), cur.Pairwise (· < ·) →
    (∀ r, stepsLoop conv d (some cur) conds = some r → (∀ c ∈ conds, Known d c) ∧
      ∃ s, r = some s ∧ s.Pairwise (· < ·) ∧ ∀ i, i ∈ s ↔ i ∈ cur ∧ ∀ c ∈ conds, Holds conv d c i) ∧
    (stepsLoop conv d (some cur) conds = none → ∃ c ∈ conds, ¬ Known d c) := by
  intro conds
  induction conds with
  | nil => intro cur hs; simp [stepsLoop, hs]
  | cons c conds ih =>
    intro cur hs
    obtain ⟨p, v⟩ := c
    obtain ⟨h1, h2⟩ := stepsEq_spec conv d p v
    rw [stepsLoop]
    cases he : stepsEq conv d p v with
    | none =>
      refine ⟨by simp, ?_⟩
      intro _
      exact ⟨(p, v), by simp, h2 he⟩
    | some cs =>
      obtain ⟨k1, k2, k3⟩ := h1 cs he
      obtain ⟨i1, i2⟩ := ih (cur.filter (fun i => cs.contains i)) (hs.sublist List.filter_sublist)
      refine ⟨?_, ?_⟩
      · intro r hr
        obtain ⟨j1, s, rfl, j2, j3⟩ := i1 r hr
        refine ⟨?_, s, rfl, j2, ?_⟩
        · intro c hc
          rcases List.mem_cons.mp hc with rfl | hc
          · exact k1
          · exact j1 c hc
        · intro i
          rw [j3 i, List.mem_filter]
          simp only [List.contains_eq_mem, decide_eq_true_eq, k3 i, List.forall_mem_cons]
          tauto
      · intro hr
        obtain ⟨c, hc, hk⟩ := i2 hr
        exact ⟨c, by simp [hc], hk⟩

theorem stepsWith_spec (conv : R → V) (d : Data V) (conds : List (Name × R)) (hne : conds ≠ []) :
    (∀ r, stepsWith conv d conds = some r → (∀ c ∈ conds, Known d c) ∧
      ∃ s, r = some s ∧ s.Pairwise (· < ·) ∧ ∀ i, i ∈ s ↔ ∀ c ∈ conds, Holds conv d c i) ∧
    (stepsWith conv d conds = none → ∃ c ∈ conds, ¬ Known d c) := by
  cases conds with
  | nil => exact absurd rfl hne
  | cons c conds =>
    obtain ⟨p, v⟩ := c
    obtain ⟨h1, h2⟩ := stepsEq_spec conv d p v
    rw [stepsWith, stepsLoop]
    cases he : stepsEq conv d p v with
    | none => exact ⟨by simp, fun _ => ⟨(p, v), by simp, h2 he⟩⟩
    | some cs =>
      obtain ⟨k1, k2, k3⟩ := h1 cs he
      obtain ⟨i1, i2⟩ := stepsLoop_spec conv d conds cs k2
      refine ⟨?_, ?_⟩
      · intro r hr
        obtain ⟨j1, s, rfl, j2, j3⟩ := i1 r hr
        refine ⟨?_, s, rfl, j2, ?_⟩
        · intro c hc
          rcases List.mem_cons.mp hc with rfl | hc
          · exact k1
          · exact j1 c hc
        · intro i
          rw [j3 i, k3 i, List.forall_mem_cons]
      · intro hr
        obtain ⟨c, hc, hk⟩ := i2 hr
        exact ⟨c, by simp [hc], hk⟩

/-- C21: with at least one condition, steps_with_conditions raises exactly when some name is unknown; otherwise it
returns, strictly increasing, exactly the steps at which every condition holds. -/
theorem C21_steps_with_conditions (conv : R → V) (d : Data V) (conds : List (Name × R)) (hne : conds ≠ []) :
    (stepsWith conv d conds = none ↔ ∃ c ∈ conds, ¬ Known d c) ∧
    ((∀ c ∈ conds, Known d c) → ∃ s, stepsWith conv d conds = some (some s) ∧ s.Pairwise (· < ·) ∧
      ∀ i, i ∈ s ↔ ∀ c ∈ conds, Holds conv d c i) := by
  obtain ⟨h1, h2⟩ := stepsWith_spec conv d conds hne
  cases h : stepsWith conv d conds with
  | none =>
    refine ⟨⟨fun _ => h2 h, fun _ => rfl⟩, ?_⟩
    intro hk
    obtain ⟨c, hc, hn⟩ := h2 h
    exact absurd (hk c hc) hn
  | some r =>
    obtain ⟨j1, s, rfl, j2, j3⟩ := h1 r h
    refine ⟨⟨by simp, ?_⟩, fun _ => ⟨s, rfl, j2, j3⟩⟩
    rintro ⟨c, hc, hn⟩
    exact absurd (j1 c hc) hn

/-- C21 (finding): called without conditions it returns None rather than all the steps. -/
theorem C21_no_condition_gives_none (conv : R → V) (d : Data V) : stepsWith conv d [] = some none := rfl

/-- C21: a look-up by conditions that does not give a value raises: it never answers None. -/
theorem C21_ambiguous_raises (conv : R → V) (d : Data V) (m : Name) (conds : List (Name × R)) (hne : conds ≠ [])
    (h : ∀ v, measureValue conv d m none conds ≠ .value v) : measureValue conv d m none conds = .raised := by
  unfold measureValue at h ⊢
  cases hf : d.dataset.find? (fun e => lower e.1 == lower m) with
  | none => rfl
  | some e =>
    obtain ⟨n, col⟩ := e
    simp only [hf, ne_eq, hne, not_false_eq_true, if_true] at h ⊢
    split at h
    · split at h
      · exact absurd rfl (h _)
      · simp_all
    · rfl

/-- C21: looking a measurement up by conditions returns a value exactly when there is one and only one step at
which all the conditions hold, and it is the entry of the measurement at that step. -/
theorem C21_measure_by_conditions (conv : R → V) (d : Data V) (m : Name) (conds : List (Name × R)) (hne : conds ≠ [])
    (v : V) :
    measureValue conv d m none conds = .value v ↔
      ∃ e i, d.dataset.find? (fun e => lower e.1 == lower m) = some e ∧ (∀ c ∈ conds, Known d c) ∧
        (∀ j, (∀ c ∈ conds, Holds conv d c j) ↔ j = i) ∧ e.2[i]? = some v := by
  obtain ⟨h1, h2⟩ := C21_steps_with_conditions conv d conds hne
  unfold measureValue
  cases hf : d.dataset.find? (fun e => lower e.1 == lower m) with
  | none => simp
  | some e =>
    obtain ⟨n, col⟩ := e
    simp only [ne_eq, hne, not_false_eq_true, if_true]
    constructor
    · intro h
      cases hs : stepsWith conv d conds with
      | none => rw [hs] at h; simp at h
      | some r =>
        have hk : ∀ c ∈ conds, Known d c := by
          by_contra hc
          push Not at hc
          have := h1.mpr hc
          rw [hs] at this; cases this
        obtain ⟨s, hs', _, hm⟩ := h2 hk
        rw [hs] at hs'
        simp only [Option.some.injEq] at hs'
        subst hs'
        rw [hs] at h
        match s, hm, h with
        | [], _, h => simp at h
        | [i], hm, h =>
          simp only [] at h
          cases hc : col[i]? with
          | none => rw [hc] at h; simp at h
          | some w =>
            rw [hc] at h
            simp only [Answer.value.injEq] at h
            subst h
            exact ⟨_, i, rfl, hk, fun j => by rw [← hm j]; simp, hc⟩
        | _ :: _ :: _, _, h => simp at h
    · rintro ⟨e, i, he, hk, hi, hv⟩
      simp only [Option.some.injEq] at he
      subst he
      obtain ⟨s, hs, hsort, hm⟩ := h2 hk
      have : s = [i] := by
        have hmem : ∀ j, j ∈ s ↔ j = i := fun j => by rw [hm j, hi j]
        match s, hsort, hmem with
        | [], _, hmem => have := (hmem i).mpr rfl; simp at this
        | [a], _, hmem => rw [(hmem a).mp (by simp)]
        | a :: b :: r, hsort, hmem =>
          exfalso
          have h1 := (hmem a).mp (by simp)
          have h2 := (hmem b).mp (by simp)
          simp at hsort
          omega
      subst this
      rw [hs]
      simp only [] at hv ⊢
      rw [hv]

/-! ### C52: aggregates -/

/-- C52: max_measure_value is one of the addressed values and no addressed value exceeds it; likewise min; the average
lies between both and times the number of values is their sum. All three exist as soon as one value is addressed. -/
theorem C52_aggregates (d : Data ℚ) (m : Name) (steps : Option (List Int)) (vs : List ℚ) (h : valuesAt d m steps = some vs)
    (hne : vs ≠ []) :
    ∃ lo hi avg, minMeasure d m steps = some lo ∧ maxMeasure d m steps = some hi ∧ avgMeasure d m steps = some avg ∧
      lo ∈ vs ∧ hi ∈ vs ∧ (∀ v ∈ vs, lo ≤ v ∧ v ≤ hi) ∧ lo ≤ avg ∧ avg ≤ hi ∧ avg * vs.length = vs.sum := by
  cases vs with
  | nil => exact absurd rfl hne
  | cons v vs =>
    unfold minMeasure maxMeasure avgMeasure
    rw [h]
    simp only [Option.some.injEq, exists_and_left, exists_eq_left']
    have hmax : ∀ (l : List ℚ) (a : ℚ), (l.foldl (fun a b => if a < b then b else a) a) ∈ a :: l ∧
        ∀ x ∈ a :: l, x ≤ l.foldl (fun a b => if a < b then b else a) a := by
      intro l
      induction l with
      | nil => intro a; simp
      | cons b l ih =>
        intro a
        simp only [List.foldl_cons]
        obtain ⟨h1, h2⟩ := ih (if a < b then b else a)
        refine ⟨?_, ?_⟩
        · rcases List.mem_cons.mp h1 with h1 | h1
          · rw [h1]; split_ifs <;> simp
          · simp [h1]
        · intro x hx
          have h0 := h2 _ (List.mem_cons_self)
          rcases List.mem_cons.mp hx with rfl | hx
          · refine le_trans ?_ h0; split_ifs with hlt
            · exact le_of_lt hlt
            · exact le_refl _
          · rcases List.mem_cons.mp hx with rfl | hx
            · refine le_trans ?_ h0; split_ifs with hlt
              · exact le_refl _
              · exact not_lt.mp hlt
            · exact h2 x (by simp [hx])
    have hmin : ∀ (l : List ℚ) (a : ℚ), (l.foldl (fun a b => if b < a then b else a) a) ∈ a :: l ∧
        ∀ x ∈ a :: l, l.foldl (fun a b => if b < a then b else a) a ≤ x := by
      intro l
      induction l with
      | nil => intro a; simp
      | cons b l ih =>
        intro a
        simp only [List.foldl_cons]
        obtain ⟨h1, h2⟩ := ih (if b < a then b else a)
        refine ⟨?_, ?_⟩
        · rcases List.mem_cons.mp h1 with h1 | h1
          · rw [h1]; split_ifs <;> simp
          · simp [h1]
        · intro x hx
          have h0 := h2 _ (List.mem_cons_self)
          rcases List.mem_cons.mp hx with rfl | hx
          · refine le_trans h0 ?_; split_ifs with hlt
            · exact le_of_lt hlt
            · exact le_refl _
          · rcases List.mem_cons.mp hx with rfl | hx
            · refine le_trans h0 ?_; split_ifs with hlt
              · exact le_refl _
              · exact not_lt.mp hlt
            · exact h2 x (by simp [hx])
    have hsum : ∀ (l : List ℚ) (a : ℚ), l.foldl (· + ·) a = (a :: l).sum := by
      intro l
      induction l with
      | nil => intro a; simp
      | cons b l ih => intro a; simp only [List.foldl_cons, ih, List.sum_cons]; ring
    have hbounds : ∀ (l : List ℚ) (lo hi : ℚ), (∀ x ∈ l, lo ≤ x ∧ x ≤ hi) → lo * l.length ≤ l.sum ∧ l.sum ≤ hi * l.length := by
      intro l lo hi
      induction l with
      | nil => simp
      | cons b l ih =>
        intro hb
        obtain ⟨h1, h2⟩ := ih (fun x hx => hb x (by simp [hx]))
        have hb0 := hb b (by simp)
        simp only [List.sum_cons, List.length_cons, Nat.cast_add, Nat.cast_one]
        constructor <;> nlinarith [h1, h2, hb0.1, hb0.2]
    obtain ⟨m1, m2⟩ := hmin vs v
    obtain ⟨M1, M2⟩ := hmax vs v
    have hall : ∀ x ∈ v :: vs, vs.foldl (fun a b => if b < a then b else a) v ≤ x ∧ x ≤ vs.foldl (fun a b => if a < b then b else a) v :=
      fun x hx => ⟨m2 x hx, M2 x hx⟩
    obtain ⟨b1, b2⟩ := hbounds (v :: vs) _ _ hall
    have hpos : (0 : ℚ) < ((vs.length + 1 : ℕ) : ℚ) := by positivity
    rw [hsum]
    simp only [List.length_cons] at b1 b2 ⊢
    refine ⟨m1, M1, hall, ?_, ?_, ?_⟩
    · rw [le_div_iff₀ hpos]; exact b1
    · rw [div_le_iff₀ hpos]; exact b2
    · rw [div_mul_cancel₀ _ (ne_of_gt hpos)]

/-- C52: without any addressed value (empty table, or an unknown name) they raise. -/
theorem C52_aggregates_raise (d : Data ℚ) (m : Name) (steps : Option (List Int))
    (h : valuesAt d m steps = none ∨ valuesAt d m steps = some []) :
    minMeasure d m steps = none ∧ maxMeasure d m steps = none ∧ avgMeasure d m steps = none := by
  unfold minMeasure maxMeasure avgMeasure
  rcases h with h | h <;> rw [h] <;> simp

/-! ### C53: export -/

/-- A column with the labels its values get in the exported file: the bare name for a scalar or a one-element list,
`name_0`, `name_1`, … for a longer list. -/
def labelled (name : Name) : Cell V → List ((Name × Option Nat) × V)
  | .one v => [((name, none), v)]
  | .many [v] => [((name, none), v)]
  | .many vs => vs.zipIdx.map (fun p => ((name, some p.2), p.1))

/-- All entries of a column have the shape of the first one, and lists are not empty. -/
def Uniform : List (Cell V) → Prop
  | col => (∀ c ∈ col, ∃ v, c = .one v) ∨ (∃ k, k ≠ 0 ∧ ∀ c ∈ col, ∃ vs, c = .many vs ∧ vs.length = k)

/-- The columns of one table at line `i`, labelled. -/
def labelledLine (cols : Dict (List (Cell V))) (i : Nat) : List ((Name × Option Nat) × V) :=
  cols.flatMap (fun e => (e.2[i]?.map (labelled e.1)).getD [])

theorem titles_labelled (name : Name) (col : List (Cell V)) (hu : Uniform col) (i : Nat) (hi : i < col.length) :
    ∃ ts c, titles name col = some ts ∧ col[i]? = some c ∧ (labelled name c).map (·.1) = ts ∧
      (labelled name c).map (·.2) = c.values := by
  cases col with
  | nil => simp at hi
  | cons c0 cs =>
    have hget : (c0 :: cs)[i]? = some (c0 :: cs)[i] := List.getElem?_eq_getElem hi
    have hmem : (c0 :: cs)[i] ∈ c0 :: cs := List.getElem_mem hi
    generalize (c0 :: cs)[i] = c at hget hmem
    rcases hu with h | ⟨k, hk, h⟩
    · obtain ⟨v0, rfl⟩ := h c0 (by simp)
      obtain ⟨v, rfl⟩ := h c hmem
      exact ⟨_, _, rfl, hget, rfl, rfl⟩
    · obtain ⟨v0, rfl, h0⟩ := h c0 (by simp)
      obtain ⟨v, rfl, h1⟩ := h c hmem
      by_cases hk1 : k = 1
      · subst hk1
        obtain ⟨x, rfl⟩ := List.length_eq_one_iff.mp h1
        refine ⟨[(name, none)], _, ?_, hget, rfl, rfl⟩
        simp [titles, h0]
      · refine ⟨(List.range k).map (fun j => (name, some j)), _, ?_, hget, ?_, ?_⟩
        · have : 1 < k := by omega
          simp [titles, h0, this]
        · match v, h1 with
          | [], h1 => simp at h1; omega
          | [x], h1 => simp at h1; omega
          | x :: y :: r, h1 =>
            simp only [labelled, List.map_map]
            generalize hw : x :: y :: r = w at *
            clear hget hmem
            apply List.ext_getElem
            · simp [← h1]
            · intro n h2 h3
              simp
        · match v, h1 with
          | [], h1 => simp at h1; omega
          | [x], h1 => simp at h1; omega
          | x :: y :: r, h1 =>
            simp only [labelled, List.map_map, Cell.values]
            generalize hw : x :: y :: r = w at *
            clear hget hmem
            apply List.ext_getElem
            · simp
            · intro n h2 h3
              simp

theorem mapM_some {α β : Type} (f : α → Option β) (g : α → β) : ∀ (l : List α), (∀ x ∈ l, f x = some (g x)) →
    l.mapM f = some (l.map g) := by
  intro l
  induction l with
  | nil => intro _; rfl
  | cons a l ih =>
    intro h
    rw [List.mapM_cons, h a (by simp), ih (fun x hx => h x (by simp [hx]))]
    rfl

theorem headerLoop_ok (strict : Bool) (n i : Nat) (hi : i < n) : ∀ (cols : Dict (List (Cell V))) (size : Option Nat),
    (∀ e ∈ cols, e.2.length = n ∧ Uniform e.2) → (size = none ∨ size = some n) →
    ∃ cells, headerLoop strict size cols = some (if cols = [] then size else some n, (labelledLine cols i).map (·.1)) ∧
      lineCells cols i = some cells ∧ cells.flatMap Cell.values = (labelledLine cols i).map (·.2) := by
  intro cols
  induction cols with
  | nil => intro size _ _; exact ⟨[], by simp [headerLoop, labelledLine], by simp [lineCells], by simp [labelledLine]⟩
  | cons e cols ih =>
    intro size hc hs
    obtain ⟨name, col⟩ := e
    obtain ⟨hl, hu⟩ := hc (name, col) (by simp)
    simp only at hl hu
    obtain ⟨ts, c, h1, h2, h3, h4⟩ := titles_labelled name col hu i (by omega)
    obtain ⟨cells, k1, k2, k3⟩ := ih (some n) (fun e he => hc e (by simp [he])) (.inr rfl)
    refine ⟨c :: cells, ?_, ?_, ?_⟩
    · have hk : headerLoop strict (some n) cols = some (some n, (labelledLine cols i).map (·.1)) := by
        rw [k1]; simp
      rcases hs with rfl | rfl <;> simp [headerLoop, hl, h1, hk, labelledLine, h2, h3]
    · unfold lineCells at k2 ⊢
      simp [h2, k2]
    · simp [labelledLine, h2, h4, k3]

/-- C53: if all columns have the same length and each is uniform, export_data writes one row per step; row number `i`
starts with `i+1` and its values stand, in order, under the titles they belong to, whatever the
numbers and widths of the columns. (`stepCount = 0` is the case of a table without step variables.) -/
theorem C53_export_aligned (d : Data (Cell V)) (n : Nat) (hn : n ≠ 0) (hd : d.dataset ≠ [])
    (hc : ∀ e ∈ d.stepset ++ d.dataset, e.2.length = n ∧ Uniform e.2) (hs : d.stepCount = 0 → d.stepset = []) :
    ∃ header rows, exportData d = .written header rows ∧ rows.length = n ∧
      ∀ i < n, ∃ row, rows[i]? = some (i + 1, row) ∧
        header = (labelledLine (d.stepset ++ d.dataset) i).map (·.1) ∧
        row = (labelledLine (d.stepset ++ d.dataset) i).map (·.2) := by
  have hstep : ∀ i, i < n → ∃ cells, headerLoop true none d.stepset =
      some (if d.stepset = [] then none else some n, (labelledLine d.stepset i).map (·.1)) ∧
      lineCells d.stepset i = some cells ∧ cells.flatMap Cell.values = (labelledLine d.stepset i).map (·.2) :=
    fun i hi => headerLoop_ok true n i hi d.stepset none (fun e he => hc e (by simp [he])) (.inl rfl)
  have hmeas : ∀ size, size = none ∨ size = some n → ∀ i, i < n → ∃ cells, headerLoop false size d.dataset =
      some (some n, (labelledLine d.dataset i).map (·.1)) ∧
      lineCells d.dataset i = some cells ∧ cells.flatMap Cell.values = (labelledLine d.dataset i).map (·.2) := by
    intro size hsz i hi
    have := headerLoop_ok false n i hi d.dataset size (fun e he => hc e (by simp [he])) hsz
    simpa [hd] using this
  have hsel : (if d.stepCount = 0 then [] else d.stepset) = d.stepset := by
    by_cases h : d.stepCount = 0
    · simp [h, hs h]
    · simp [h]
  obtain ⟨_, h1, _, _⟩ := hstep 0 (by omega)
  have hsz : (if d.stepset = [] then none else some n) = none ∨ (if d.stepset = [] then none else some n) = some n := by
    by_cases h : d.stepset = [] <;> simp [h]
  obtain ⟨_, h2, _, _⟩ := hmeas _ hsz 0 (by omega)
  have hrow : ∀ i, i < n → (match lineCells (if d.stepCount = 0 then [] else d.stepset) i with
      | none => none
      | some step => match lineCells d.dataset i with
        | none => none
        | some meas => some (i + 1, (step ++ meas).flatMap Cell.values)) =
      some (i + 1, (labelledLine (d.stepset ++ d.dataset) i).map (·.2)) := by
    intro i hi
    obtain ⟨c1, _, e1, f1⟩ := hstep i hi
    obtain ⟨c2, _, e2, f2⟩ := hmeas _ hsz i hi
    rw [hsel, e1, e2]
    simp [f1, f2, labelledLine]
  have hrows : exportRows d n = some ((List.range n).map (fun i => (i + 1, (labelledLine (d.stepset ++ d.dataset) i).map (·.2)))) := by
    unfold exportRows
    exact mapM_some _ _ _ (fun i hi => hrow i (List.mem_range.mp hi))
  refine ⟨(labelledLine d.stepset 0).map (·.1) ++ (labelledLine d.dataset 0).map (·.1),
    (List.range n).map (fun i => (i + 1, (labelledLine (d.stepset ++ d.dataset) i).map (·.2))), ?_, ?_, ?_⟩
  · unfold exportData
    rw [if_neg hd, h1]
    simp only [h2, Option.getD_some, hrows]
  · simp
  · intro i hi
    refine ⟨(labelledLine (d.stepset ++ d.dataset) i).map (·.2), by simp [hi], ?_, rfl⟩
    obtain ⟨_, g1, _, _⟩ := hstep i hi
    obtain ⟨_, g2, _, _⟩ := hmeas _ hsz i hi
    rw [h1] at g1
    rw [h2] at g2
    simp only [Option.some.injEq, Prod.mk.injEq, true_and] at g1 g2
    rw [g1, g2, ← List.map_append, labelledLine, labelledLine, ← List.flatMap_append]; rfl

/-- C53: step variables with different numbers of values are refused. -/
theorem C53_ragged_steps_refused (d : Data (Cell V)) (a b : Name × List (Cell V)) (rest : Dict (List (Cell V)))
    (hs : d.stepset = a :: b :: rest) (hd : d.dataset ≠ []) (hne : a.2.length ≠ b.2.length) : exportData d = .raised := by
  unfold exportData
  rw [if_neg hd, hs]
  obtain ⟨an, ac⟩ := a
  obtain ⟨bn, bc⟩ := b
  simp only at hne
  simp only [headerLoop]
  cases titles an ac <;> simp [hne]

/-- C53 (finding): an empty list as first entry gets a title but no value, so that every later value of the
row stands under the title to its left. -/
theorem C53_empty_list_shifts_columns (a b : Name) (v : V) :
    exportData (V := V) ⟨[], [(a, [.many []]), (b, [.one v])], 0⟩ = .written [(a, none), (b, none)] [(1, [v])] := by
  simp [exportData, headerLoop, titles, exportRows, lineCells, Cell.values]

example : exportData (V := ℚ) ⟨[(['r'], [.one 1, .one 2])], [(['m'], [.one 5, .one 6]), (['z'], [.many [1, 2], .many [3, 4]])], 1⟩ =
    .written [(['r'], none), (['m'], none), (['z'], some 0), (['z'], some 1)] [(1, [1, 5, 1, 2]), (2, [2, 6, 3, 4])] := by
  rfl

/-! ### Concrete cases -/

def exData : Data ℚ := .new [(['r'], [1, 2, 1]), (['c'], [5, 5, 6])] [(['v', 'm'], [10, 20, 30])]

example : stepsWith id exData [(['R'], 1), (['c'], 5)] = some (some [0]) := by decide +kernel
example : stepsWith id exData [(['R'], 1), (['q'], 5)] = none := by decide +kernel
example : measureValue id exData ['V', 'm'] none [(['R'], 1), (['c'], 6)] = .value 30 := by decide +kernel
example : measureValue id exData ['V', 'm'] none [(['R'], 1)] = .raised := by decide +kernel
example : valuesAt exData ['V', 'M'] (some [0, -1]) = some [10, 30] := by decide +kernel
example : maxMeasure exData ['V', 'M'] none = some 30 ∧ avgMeasure exData ['V', 'M'] none = some 20 := by decide +kernel

end Props.LogData
