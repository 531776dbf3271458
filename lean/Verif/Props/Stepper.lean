import Verif.Lemmas.Stepper
/-
C05, C06: SimStepper (sim/sim_stepping.py).
-/
namespace Props.Stepper
open Model.Stepper Spec Lemmas.Stepper

variable {V : Type}

/-- Assumption on how the user set up the sweeps: no generator (one-shot iterator) is swept and no
single `sweep` object is used for two dimensions. Lists/tuples/ranges may be shared freely. -/
def ReusableSweeps (dims : List (Dim V)) : Prop :=
  (∀ d ∈ dims, d.kind ≠ .oneShot) ∧
  dims.Pairwise (fun a b => a.kind = .selfReset → b.kind = .selfReset → a.obj ≠ b.obj)

/-- C05 (re-iterable sweeps, sweep objects used once; the two counter-examples below show what happens
otherwise): `run_all` terminates, and the sequence of launched simulations is exactly the Cartesian product
of the swept value lists in lexicographic order; at each launch the editor (and `current_values`)
contain the initial settings overridden by that combination and nothing else. -/
theorem C05_run_all_product (dims : List (Dim V)) (task : Nat → Option Nat)
    (hdims : ReusableSweeps dims) (pos : Handle → Nat) (editor : What × Nat → Option V)
    (cur : Nat → Option V) (info : Nat → Option (Nat → Option V)) :
    ∃ s' N, (∀ n, N ≤ n → runAll dims task n (init dims pos editor cur info) = some s') ∧
      s'.launches = (product (dims.map (·.vals))).map fun c =>
        (applyCombo editor (dims.map fun d => (d.what, d.elem)) c,
         applyCombo cur (dims.map (·.elem)) c) := by
  have hsep := sep_of_noalias dims 0 hdims.1 hdims.2
  obtain ⟨s', st, hi, _, _, _, _, hl⟩ := odometer dims task dims [] rfl hsep
    (init dims pos editor cur info) rfl (resetAll_rewound dims 0 pos hsep)
  have hnone : step dims task s' = none := by
    unfold step; rw [if_pos (by simp at hi; omega)]
  obtain ⟨N, hN⟩ := st.runAll hnone
  exact ⟨s', N, hN, by simpa [init, snaps, keys, elems] using hl⟩

/-- Reading C05 off for one launch: if the swept elements are distinct, launch number `r` sees, for each
sweep `i`, exactly the `i`-th value of the `r`-th combination, and every setting that is not swept is as
it was before `run_all`. -/
theorem C05_launch_values (dims : List (Dim V)) (task : Nat → Option Nat)
    (hdims : ReusableSweeps dims) (hkeys : (dims.map fun d => (d.what, d.elem)).Nodup)
    (pos : Handle → Nat) (editor : What × Nat → Option V)
    (cur : Nat → Option V) (info : Nat → Option (Nat → Option V)) (n : Nat) (s' : St V)
    (hrun : runAll dims task n (init dims pos editor cur info) = some s') :
    s'.launches.length = (product (dims.map (·.vals))).length ∧
    ∀ (r : Nat) (ed : What × Nat → Option V) (cu : Nat → Option V), s'.launches[r]? = some (ed, cu) →
      ∃ c : List V, (product (dims.map (·.vals)))[r]? = some c ∧
        (∀ (i : Nat) (d : Dim V), dims[i]? = some d → ed (d.what, d.elem) = c[i]? ∧ ∃ v, c[i]? = some v) ∧
        (∀ k, (∀ d ∈ dims, k ≠ (d.what, d.elem)) → ed k = editor k) := by
  obtain ⟨s2, N, hN, hl⟩ := C05_run_all_product dims task hdims pos editor cur info
  have mono : ∀ n m (s : St V) (r : St V), runAll dims task n s = some r → n ≤ m →
      runAll dims task m s = some r := by
    intro n
    induction n with
    | zero => intro m s r h; simp [runAll] at h
    | succ n ih =>
      intro m s r h hm
      obtain ⟨m', rfl⟩ : ∃ m', m = m' + 1 := ⟨m - 1, by omega⟩
      simp only [runAll] at h ⊢
      cases hst : step dims task s with
      | none => rw [hst] at h; exact h
      | some s1 => rw [hst] at h; exact ih m' s1 r h (by omega)
  have h1 := mono n (max n N) _ _ hrun (by omega)
  rw [hN _ (by omega)] at h1
  injection h1 with h1; subst h1
  refine ⟨by simp [hl], ?_⟩
  intro r ed cu hr
  rw [hl, List.getElem?_map, Option.map_eq_some_iff] at hr
  obtain ⟨c, hc, he⟩ := hr
  refine ⟨c, hc, ?_, ?_⟩
  · intro i d hd
    have hlen : c.length = dims.length := by
      have := length_of_mem_product _ _ (List.mem_of_getElem? hc); simpa using this
    injection he with he _
    subst he
    refine ⟨applyCombo_get _ _ _ hkeys (by simp [hlen]) i _ (by simp [hd]), ?_⟩
    have : i < dims.length := by
      rcases Nat.lt_or_ge i dims.length with h | h
      · exact h
      · rw [List.getElem?_eq_none_iff.mpr h] at hd; cases hd
    exact ⟨_, List.getElem?_eq_getElem (by omega)⟩
  · intro k hk
    injection he with he _
    subst he
    apply applyCombo_notin
    simp only [List.mem_map, not_exists, not_and]
    intro d hd he
    exact hk d hd he.symm

/-- C05: every combination is launched, and none twice if the value lists have no repetition
(specification-level facts about `product`, restated on the launch list). -/
theorem C05_every_combination_once (dims : List (Dim V)) (task : Nat → Option Nat)
    (hdims : ReusableSweeps dims) (pos : Handle → Nat) (editor : What × Nat → Option V)
    (cur : Nat → Option V) (info : Nat → Option (Nat → Option V)) :
    ∃ (s' : St V) (N : Nat) (combos : List (List V)), (∀ n, N ≤ n → runAll dims task n (init dims pos editor cur info) = some s') ∧
      s'.launches = combos.map (fun c => (applyCombo editor (dims.map fun d => (d.what, d.elem)) c,
         applyCombo cur (dims.map (·.elem)) c)) ∧
      (∀ c, c ∈ combos ↔ List.Forall₂ (fun v d => v ∈ d.vals) c dims) ∧
      ((∀ d ∈ dims, d.vals.Nodup) → combos.Nodup) := by
  obtain ⟨s', N, h1, h2⟩ := C05_run_all_product dims task hdims pos editor cur info
  refine ⟨s', N, _, h1, h2, ?_, ?_⟩
  · intro c
    rw [mem_product]
    constructor
    · intro h; exact (List.forall₂_map_right_iff).mp h
    · intro h; exact (List.forall₂_map_right_iff).mpr h
  · intro h
    apply nodup_product
    intro l hl
    simp only [List.mem_map] at hl
    obtain ⟨d, hd, rfl⟩ := hl
    exact h d hd

/-- C05: no sweep at all means exactly one run with the untouched netlist. -/
theorem C05_no_sweeps_one_run (task : Nat → Option Nat) (pos : Handle → Nat)
    (editor : What × Nat → Option V) (cur : Nat → Option V) (info : Nat → Option (Nat → Option V)) :
    ∃ s', runAll [] task 2 (init [] pos editor cur info) = some s' ∧
      s'.launches = [(editor, cur)] := by
  exact ⟨_, rfl, rfl⟩

/-- C05: `sim_info` of a run number holds the values in force at that launch (run numbers returned by the
runner are distinct, cf. C08). -/
theorem C05_sim_info (dims : List (Dim V)) (task : Nat → Option Nat)
    (pos : Handle → Nat) (editor : What × Nat → Option V) (cur : Nat → Option V)
    (htask : ∀ i j r, task i = some r → task j = some r → i = j)
    (n : Nat) (s' : St V)
    (hrun : runAll dims task n (init dims pos editor cur (fun _ => none)) = some s')
    (i r : Nat) (ed : What × Nat → Option V) (cu : Nat → Option V) (hi : s'.launches[i]? = some (ed, cu)) (hr : task i = some r) :
    s'.simInfo r = some cu := by
  have hsteps : ∀ n (s s' : St V), runAll dims task n s = some s' → Steps dims task s s' := by
    intro n
    induction n with
    | zero => intro s s' h; simp [runAll] at h
    | succ n ih =>
      intro s s' h
      simp only [runAll] at h
      cases hst : step dims task s with
      | none => rw [hst] at h; injection h with h; subst h; exact Steps.refl _
      | some s1 => rw [hst] at h; exact Steps.head hst (ih _ _ h)
  have hinf := (hsteps _ _ _ hrun).info (info0 := fun _ => none) rfl
  rw [hinf]
  have := infoOf_get task (fun _ => none) 0 s'.launches i r (ed, cu) hi (by simpa using hr)
    (fun k hk _ hc => by have := htask _ _ _ hc (by simpa using hr : task (0 + i) = some r); omega)
  exact this

/-- Counter-example 1 to unrestricted C05: one sweep object used for two parameters makes `run_all`
loop forever (for every bound, it has not finished). Both parameters sweep `[0,1]` with the same object. -/
def aliased : List (Dim Nat) :=
  [⟨.param, 0, 7, .selfReset, [0, 1]⟩, ⟨.param, 1, 7, .selfReset, [0, 1]⟩]

theorem C05_shared_sweep_object_never_ends (task : Nat → Option Nat) (editor : What × Nat → Option Nat)
    (cur : Nat → Option Nat) (info : Nat → Option (Nat → Option Nat)) (pos : Handle → Nat) (n : Nat) :
    runAll aliased task n (init aliased pos editor cur info) = none := by
  -- the reachable control states (iterNo, position of the shared object) never reach iterNo = -1
  have inv : ∀ n (s : St Nat),
      ((s.iterNo = 0 ∧ s.pos (.shared 7) = 0) ∨ (s.iterNo = 1 ∧ s.pos (.shared 7) = 1) ∨
       (s.iterNo = 2 ∧ s.pos (.shared 7) = 2) ∨ (s.iterNo = 1 ∧ s.pos (.shared 7) = 2)) →
      runAll aliased task n s = none := by
    intro n
    induction n with
    | zero => intros; rfl
    | succ n ih =>
      rintro s (⟨h1, h2⟩ | ⟨h1, h2⟩ | ⟨h1, h2⟩ | ⟨h1, h2⟩) <;>
        simp only [runAll, step, h1, aliased] <;>
        simp [handle, h2, iterReset] <;> apply ih <;> simp [upd, h2]
  apply inv
  left
  simp [init, resetAll, aliased, iterReset, upd]

/-- Counter-example 2: a generator as the second sweep is exhausted after the first round; only part of
the product is run (2 instead of 4 launches). -/
def oneShotInner : List (Dim Nat) :=
  [⟨.param, 0, 1, .fresh, [10, 20]⟩, ⟨.param, 1, 2, .oneShot, [1, 2]⟩]

theorem C05_generator_sweep_truncated :
    ((runAll oneShotInner (fun _ => none) 100
      (init oneShotInner (fun _ => 0) (fun _ => none) (fun _ => none) (fun _ => none))).map
        (fun s => s.launches.length)) = some 2 := by decide

/-- Non-vacuity of C05: two sweeps (one list, one sweep object). -/
example : ReusableSweeps ([⟨.param, 0, 1, .fresh, [10, 20]⟩, ⟨.component, 1, 2, .selfReset, [1, 2, 3]⟩] :
    List (Dim Nat)) := by
  constructor
  · simp
  · simp

/-! ### C06 -/

/-- C06: `total_number_of_simulations()` is the product of the lengths of the sweeps that have values, and
`run_all` (called afterwards) launches the product of all lengths. -/
theorem C06_total_and_launches (dims : List (Dim V)) (task : Nat → Option Nat)
    (hdims : ReusableSweeps dims) (pos : Handle → Nat) (editor : What × Nat → Option V)
    (cur : Nat → Option V) (info : Nat → Option (Nat → Option V)) :
    (total dims pos).1 = ((dims.map (·.vals.length)).filter (· ≠ 0)).prod ∧
    ∃ s' N, (∀ n, N ≤ n →
        runAll dims task n (init dims (total dims pos).2 editor cur info) = some s') ∧
      s'.launches.length = (dims.map (·.vals.length)).prod := by
  have key : ∀ (ds : List (Dim V)) (i : Nat) (pos : Handle → Nat) (t : Nat),
      (∀ d ∈ ds, d.kind ≠ .oneShot) →
      (totalFrom i ds pos t).1 = t * ((ds.map (·.vals.length)).filter (· ≠ 0)).prod := by
    intro ds
    induction ds with
    | nil => intros; simp [totalFrom]
    | cons d ds ih =>
      intro i pos t hk
      have hlen : (lenStep pos i d).1 = d.vals.length := by
        have := hk d (by simp)
        unfold lenStep
        cases hkk : d.kind <;> simp_all
      simp only [totalFrom, hlen]
      rw [ih _ _ _ (fun e he => hk e (by simp [he]))]
      simp only [List.map_cons, List.filter_cons]
      by_cases h0 : d.vals.length = 0
      · simp [h0]
      · simp [h0, Nat.mul_assoc]
  refine ⟨by unfold total; rw [key dims 0 pos 1 hdims.1, Nat.one_mul], ?_⟩
  obtain ⟨s', N, hN, hl⟩ := C05_run_all_product dims task hdims (total dims pos).2 editor cur info
  refine ⟨s', N, hN, ?_⟩
  rw [hl, List.length_map, length_product, List.map_map]
  rfl

/-- C06: the prediction equals the number of launches, exactly when no sweep is empty; with an empty sweep
nothing is launched although a positive number is predicted. -/
theorem C06_total_matches_run_all (dims : List (Dim V)) (task : Nat → Option Nat)
    (hdims : ReusableSweeps dims) (pos : Handle → Nat) (editor : What × Nat → Option V)
    (cur : Nat → Option V) (info : Nat → Option (Nat → Option V)) :
    ∃ s' N, (∀ n, N ≤ n →
        runAll dims task n (init dims (total dims pos).2 editor cur info) = some s') ∧
      ((total dims pos).1 = s'.launches.length ↔ ∀ d ∈ dims, d.vals ≠ []) ∧
      ((∃ d ∈ dims, d.vals = []) → s'.launches = [] ∧ 0 < (total dims pos).1) := by
  obtain ⟨h1, s', N, hN, hl⟩ := C06_total_and_launches dims task hdims pos editor cur info
  have pos_prod : ∀ l : List Nat, 0 < (l.filter (· ≠ 0)).prod := by
    intro l
    induction l with
    | nil => simp
    | cons a l ih =>
      rw [List.filter_cons]
      by_cases ha : a = 0
      · simpa [ha] using ih
      · rw [if_pos (by simpa using ha), List.prod_cons]
        exact Nat.mul_pos (by omega) ih
  have zero_prod : ∀ l : List Nat, 0 ∈ l → l.prod = 0 := by
    intro l
    induction l with
    | nil => simp
    | cons a l ih =>
      intro h
      rw [List.prod_cons]
      rcases List.mem_cons.mp h with h | h
      · simp [← h]
      · simp [ih h]
  have hpos : 0 < (total dims pos).1 := by rw [h1]; exact pos_prod _
  have hz : (∃ d ∈ dims, d.vals = []) → s'.launches = [] := by
    rintro ⟨d, hd, he⟩
    apply List.eq_nil_of_length_eq_zero
    rw [hl]
    apply zero_prod
    exact List.mem_map.mpr ⟨d, hd, by simp [he]⟩
  refine ⟨s', N, hN, ⟨?_, ?_⟩, fun h => ⟨hz h, hpos⟩⟩
  · intro h d hd he
    have := hz ⟨d, hd, he⟩
    rw [this] at h
    simp at h; omega
  · intro hne
    rw [h1, hl]
    congr 1
    rw [List.filter_eq_self]
    intro x hx
    simp only [List.mem_map] at hx
    obtain ⟨d, hd, rfl⟩ := hx
    have := hne d hd
    simpa using this

/-- C06 counter-example: an empty sweep is skipped by the prediction (2 foreseen) but `run_all` launches
nothing. -/
def withEmpty : List (Dim Nat) :=
  [⟨.param, 0, 1, .fresh, [10, 20]⟩, ⟨.param, 1, 2, .fresh, []⟩]

theorem C06_empty_sweep_mismatch :
    (total withEmpty (fun _ => 0)).1 = 2 ∧
    ((runAll withEmpty (fun _ => none) 100
      (init withEmpty (fun _ => 0) (fun _ => none) (fun _ => none) (fun _ => none))).map
        (fun s => s.launches.length)) = some 0 := by decide

/-- Non-vacuity of C06. -/
example : ReusableSweeps ([⟨.param, 0, 1, .fresh, [10, 20]⟩] : List (Dim Nat)) ∧
    ∀ d ∈ ([⟨.param, 0, 1, .fresh, [10, 20]⟩] : List (Dim Nat)), d.vals ≠ [] := by
  constructor
  · constructor <;> simp
  · simp

end Props.Stepper
