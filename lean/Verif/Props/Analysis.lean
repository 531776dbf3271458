import Verif.Lemmas.Analysis
import Verif.Spec.Tolerance
/-
C14: worst-case analysis; C17: quick sensitivity analysis (sim/tookit).
-/
namespace Props.Analysis
open Model.Analysis Lemmas.Analysis Spec.Tolerance

theorem valueDev_of (a : St) (ref : Name) (c : Char) (hc : ref.head? = some c) (hal : c ∈ allowed)
    (hex : (a.net .component ref).isSome) : (a.valueDev ref).isSome := by
  obtain ⟨v, hv⟩ := Option.isSome_iff_exists.mp hex
  unfold St.valueDev
  simp only [hc, hal, if_true, hv]
  cases v
  · simp only; split
    · rfl
    · split <;> rfl
  · rfl

theorem mem_defaultRefs (a : St) (ref : Name) :
    ref ∈ defaultRefs a ↔ ref ∈ a.comps ∧ ∃ c ∈ a.defaultTol.map Prod.fst, ref.head? = some c := by
  simp only [defaultRefs, List.mem_flatMap, List.mem_filter, decide_eq_true_eq, List.mem_map]
  constructor
  · rintro ⟨p, hp, h1, h2⟩; exact ⟨h1, p.1, ⟨p, hp, rfl⟩, h2⟩
  · rintro ⟨h1, c, ⟨p, hp, rfl⟩, h2⟩; exact ⟨p, hp, h1, h2⟩

theorem gather_setUp (a : St) (hs : SetUp a) :
    gather a = some ⟨(entries a).map Prod.fst, (entries a).reverse⟩ := by
  apply gather_eq
  · intro ref href
    obtain ⟨p, hp, rfl⟩ := List.mem_map.mp href
    obtain ⟨h1, c, hc, hc'⟩ := hs.dev_comps p hp
    exact valueDev_of a _ c hc' hc (hs.comps_exist _ h1)
  · exact hs.par_exist
  · intro ref href
    obtain ⟨h1, c, hc, hc'⟩ := (mem_defaultRefs a ref).mp href
    rw [hs.tol_keys] at hc
    exact valueDev_of a _ c hc' hc (hs.comps_exist _ h1)

theorem compEntry_fst (a : St) (r : Name) : (compEntry a r).map Prod.fst = (compEntry a r).map (fun _ => r) := by
  unfold compEntry; split <;> [split; skip] <;> simp

theorem defEntry_fst (a : St) (r : Name) : (defEntry a r).map Prod.fst = (defEntry a r).map (fun _ => r) := by
  unfold defEntry; split
  · rfl
  · exact compEntry_fst a r

theorem paramEntry_fst (a : St) (p : Name × Dev) :
    (paramEntry a p).map Prod.fst = (paramEntry a p).map (fun _ => p.1) := by
  unfold paramEntry; split <;> [split; skip] <;> simp

theorem map_fst_filterMap_sublist {β γ : Type} (ent : β → Option (Name × γ)) (key : β → Name)
    (h : ∀ b, (ent b).map Prod.fst = (ent b).map (fun _ => key b)) (l : List β) :
    ((l.filterMap ent).map Prod.fst).Sublist (l.map key) := by
  induction l with
  | nil => simp
  | cons b l ih =>
    rw [List.filterMap_cons]
    cases he : ent b with
    | none => simpa using ih.cons (key b)
    | some p =>
      have := h b; rw [he] at this; simp at this
      simp only [List.map_cons, this]; exact ih.cons_cons _

theorem defaultRefs_nodup (a : St) (hs : SetUp a) : (defaultRefs a).Nodup := by
  have hk : (a.defaultTol.map Prod.fst).Nodup := by rw [hs.tol_keys]; decide
  unfold defaultRefs
  rw [List.nodup_flatMap]
  refine ⟨fun p _ => hs.comps_nodup.filter _, ?_⟩
  have := List.pairwise_map.mp hk
  refine this.imp ?_
  intro p q hne
  rw [Function.onFun, List.disjoint_left]
  intro r h1 h2
  simp only [List.mem_filter, decide_eq_true_eq] at h1 h2
  rw [h1.2] at h2; exact hne (by simpa using h2.2)

theorem entries_nodup (a : St) (hs : SetUp a) : ((entries a).map Prod.fst).Nodup := by
  unfold entries
  rw [List.map_append, List.map_append]
  have s1 := map_fst_filterMap_sublist (compEntry a) id (compEntry_fst a) (a.deviceDev.map Prod.fst)
  have s2 := map_fst_filterMap_sublist (paramEntry a) Prod.fst (paramEntry_fst a) a.paramDev
  have s3 := map_fst_filterMap_sublist (defEntry a) id (defEntry_fst a) (defaultRefs a)
  rw [List.map_id] at s1 s3
  refine List.Nodup.append (List.Nodup.append (s1.nodup hs.dev_nodup) (s2.nodup hs.par_nodup) ?_)
    (s3.nodup (defaultRefs_nodup a hs)) ?_
  · rw [List.disjoint_left]
    intro x h1 h2
    obtain ⟨p, hp, rfl⟩ := List.mem_map.mp (s1.subset h1)
    obtain ⟨q, hq, hqe⟩ := List.mem_map.mp (s2.subset h2)
    exact hs.par_not_comp q hq (hqe ▸ (hs.dev_comps p hp).1)
  · rw [List.disjoint_left]
    intro x h1 h2
    have hx := (mem_defaultRefs a x).mp (s3.subset h2)
    rcases List.mem_append.mp h1 with h1 | h1
    · -- a device with its own deviation is not added again
      obtain ⟨e, he, rfl⟩ := List.mem_map.mp h2
      obtain ⟨r, hr, hre⟩ := List.mem_filterMap.mp he
      have : r = e.1 := by have := defEntry_fst a r; rw [hre] at this; simpa using this.symm
      subst this
      unfold defEntry at hre
      rw [if_pos (s1.subset h1)] at hre; cases hre
    · obtain ⟨q, hq, hqe⟩ := List.mem_map.mp (s2.subset h1)
      exact hs.par_not_comp q hq (hqe ▸ hx.1)

/-- The gathered elements are exactly the elements of the specification. -/
theorem mem_entries (a : St) (hs : SetUp a) (nominal : Net) (hy : InSync a nominal) (ref : Name) (e : Elem) :
    (ref, e) ∈ entries a ↔ IsElement a nominal ref e.kind e.val e.dev := by
  have key : ∀ (r : Name) (e : Elem), compEntry a r = some (ref, e) ↔
      r = ref ∧ e.kind = .component ∧ e.dev.isNotValid = false ∧ a.valueDev ref = some (e.val, e.dev) := by
    intro r e
    unfold compEntry
    constructor
    · intro h
      split at h
      · next v d hvd =>
        split at h
        · cases h
        · next hnv =>
          simp only [Option.some.injEq, Prod.mk.injEq] at h
          obtain ⟨rfl, rfl⟩ := h
          exact ⟨rfl, rfl, by simpa using hnv, hvd⟩
      · cases h
    · rintro ⟨rfl, hk, hnv, hvd⟩
      rw [hvd]; simp only [hnv, Bool.false_eq_true, if_false]
      rcases e with ⟨v, d, k⟩; subst hk; rfl
  have valid : ∀ d : Dev, d.isNotValid = false ↔ d.typ ≠ .none ∧ d.minVal ≠ d.maxVal := by
    intro d; unfold Dev.isNotValid; simp only [Bool.or_eq_false_iff, decide_eq_false_iff_not]; tauto
  have head : ∀ r ∈ a.comps, (∀ d', (r, d') ∉ a.deviceDev) → a.deviceDev.lookup r = none := by
    intro r _ h
    cases hl : a.deviceDev.lookup r with
    | none => rfl
    | some d => exact absurd (mem_of_lookup hl) (h d)
  have htn : (a.defaultTol.map Prod.fst).Nodup := by rw [hs.tol_keys]; decide
  -- valueDev for a component of the netlist
  have vd : ∀ (r : Name) (v : Val) (d : Dev), r ∈ a.comps → d.isNotValid = false →
      (a.valueDev r = some (v, d) ↔ (∃ c ∈ allowed, r.head? = some c) ∧ (∃ q, v = .num q ∧ nominal .component r = some (.num q)) ∧ DeviationOf a r d) := by
    intro r v d hr hd
    have hvd := (valid d).mp hd
    unfold St.valueDev
    cases hh : r.head? with
    | none => simp
    | some c =>
      by_cases hal : c ∈ allowed
      swap
      · simp only [hal, if_false]; constructor
        · intro h; cases h
        · rintro ⟨⟨c', h1, h2⟩, _⟩; simp at h2; subst h2; exact absurd h1 hal
      simp only [hal, if_true, hy.comp r hr]
      cases hn : nominal .component r with
      | none => simp
      | some w =>
        cases w with
        | text s =>
          simp only [Option.some.injEq, Prod.mk.injEq]
          constructor
          · rintro ⟨_, rfl⟩; exact absurd rfl hvd.1
          · rintro ⟨_, ⟨q, _, h⟩, _⟩; cases h
        | num q =>
          constructor
          · intro h
            refine ⟨⟨c, hal, rfl⟩, ?_⟩
            simp only at h
            cases hl : a.deviceDev.lookup r with
            | some d0 =>
              rw [hl] at h; simp at h; obtain ⟨rfl, rfl⟩ := h
              exact ⟨⟨q, rfl, rfl⟩, Or.inl (mem_of_lookup hl)⟩
            | none =>
              rw [hl] at h; simp only at h
              have hnd : ∀ d', (r, d') ∉ a.deviceDev := by
                intro d' hd'
                have := lookup_of_mem hs.dev_nodup hd'
                simp [hl] at this
              cases hl2 : a.defaultTol.lookup c with
              | some d0 =>
                rw [hl2] at h; simp at h; obtain ⟨rfl, rfl⟩ := h
                exact ⟨⟨q, rfl, rfl⟩, Or.inr ⟨hnd, c, hh, mem_of_lookup hl2⟩⟩
              | none =>
                rw [hl2] at h; simp at h; obtain ⟨rfl, rfl⟩ := h
                exact absurd rfl hvd.1
          · rintro ⟨_, ⟨q', rfl, hq'⟩, hdev⟩
            simp only [Option.some.injEq, Val.num.injEq] at hq'; subst hq'
            rcases hdev with hdev | ⟨hnd, c', hc', hdev⟩
            · have := lookup_of_mem hs.dev_nodup hdev
              simp only at this; simp only [this]
            · rw [hh] at hc'; simp at hc'; subst hc'
              have := lookup_of_mem htn hdev
              simp only at this
              simp only [head r hr hnd, this]
  unfold entries
  simp only [List.mem_append, List.mem_filterMap]
  constructor
  · rintro ((⟨r, hr, h⟩ | ⟨p, hp, h⟩) | ⟨r, hr, h⟩)
    · obtain ⟨rfl, hk, hnv, hvd⟩ := (key _ _).mp h
      obtain ⟨p, hp, rfl⟩ := List.mem_map.mp hr
      have hc := (hs.dev_comps p hp).1
      obtain ⟨_, ⟨q, hq, hnq⟩, hdev⟩ := (vd _ _ _ hc hnv).mp hvd
      rw [hk, hq]
      exact ⟨hc, hnq, ⟨q, rfl⟩, hdev, ((valid _).mp hnv).1, ((valid _).mp hnv).2⟩
    · unfold paramEntry at h
      split at h
      · next v hv =>
        split at h
        · simp only [Option.some.injEq, Prod.mk.injEq] at h
          obtain ⟨rfl, rfl⟩ := h
          rw [hy.param p hp] at hv
          exact ⟨hp, hv⟩
        · cases h
      · cases h
    · unfold defEntry at h
      split at h
      · cases h
      · obtain ⟨rfl, hk, hnv, hvd⟩ := (key _ _).mp h
        have hc := ((mem_defaultRefs a r).mp hr).1
        obtain ⟨_, ⟨q, hq, hnq⟩, hdev⟩ := (vd _ _ _ hc hnv).mp hvd
        rw [hk, hq]
        exact ⟨hc, hnq, ⟨q, rfl⟩, hdev, ((valid _).mp hnv).1, ((valid _).mp hnv).2⟩
  · intro h
    rcases e with ⟨v, d, k⟩
    simp only at h
    cases k with
    | component =>
      obtain ⟨hc, hnq, ⟨q, rfl⟩, hdev, ht, hm⟩ := h
      have hnv := (valid d).mpr ⟨ht, hm⟩
      have hal : ∃ c ∈ allowed, ref.head? = some c := by
        rcases hdev with hdev | ⟨_, c, hc', hdev⟩
        · exact (hs.dev_comps _ hdev).2
        · exact ⟨c, by rw [← hs.tol_keys]; exact List.mem_map.mpr ⟨_, hdev, rfl⟩, hc'⟩
      have hvd := (vd ref (.num q) d hc hnv).mpr ⟨hal, ⟨q, rfl, hnq⟩, hdev⟩
      by_cases hin : ref ∈ a.deviceDev.map Prod.fst
      · left; left
        exact ⟨ref, hin, (key _ _).mpr ⟨rfl, rfl, hnv, hvd⟩⟩
      · right
        refine ⟨ref, (mem_defaultRefs a ref).mpr ⟨hc, ?_⟩, ?_⟩
        · rw [hs.tol_keys]; exact hal
        · unfold defEntry; rw [if_neg hin]
          exact (key _ _).mpr ⟨rfl, rfl, hnv, hvd⟩
    | parameter =>
      obtain ⟨hp, hv⟩ := h
      left; right
      refine ⟨(ref, d), hp, ?_⟩
      unfold paramEntry
      rw [hy.param _ hp, hv]
      have := hs.par_minmax _ hp
      simp only at this
      simp [this]

theorem tol_num (a : St) (hs : SetUp a) (nominal : Net) (hy : InSync a nominal) (p : Name × Elem)
    (hp : p ∈ entries a) : p.2.dev.typ ≠ .none ∧ (p.2.dev.typ = .tolerance → ∃ q, p.2.val = .num q) := by
  have h := (mem_entries a hs nominal hy p.1 p.2).mp hp
  cases hk : p.2.kind with
  | component =>
    rw [hk] at h
    exact ⟨h.2.2.2.2.1, fun _ => h.2.2.1⟩
  | parameter =>
    rw [hk] at h
    have := hs.par_minmax _ h.1
    simp only at this
    exact ⟨by rw [this]; decide, fun h => by rw [this] at h; cases h⟩

theorem wcValue_eq (e : Elem) (h : e.dev.typ ≠ .none ∧ (e.dev.typ = .tolerance → ∃ q, e.val = .num q)) (b : Bool) :
    wcValue e b = some (if b then low e.val e.dev else high e.val e.dev) := by
  rcases e with ⟨v, d, k⟩
  obtain ⟨h1, h2⟩ := h
  simp only at h1 h2
  unfold wcValue low high
  cases ht : d.typ with
  | tolerance =>
    obtain ⟨q, rfl⟩ := h2 ht
    cases b <;> simp [Dev.tolerance] <;> ring
  | minmax => cases b <;> simp
  | none => exact absurd ht h1

theorem played (a : St) (nominal : Net) (hy : InSync a nominal) :
    ({ a with launched := [] } : St).reset.play =
      some { a with launched := [], net := nominal, added := true } := by
  unfold St.reset St.play
  simp only [Bool.false_eq_true, if_false, hy.replay, Option.bind_eq_bind, Option.bind_some]

/-- Facts common to both analyses. -/
theorem common (a : St) (hs : SetUp a) (nominal : Net) (hy : InSync a nominal) :
    gather ({ a with launched := [] } : St) = some ⟨(entries a).map Prod.fst, (entries a).reverse⟩ ∧
    (∀ p ∈ entries a, ¬(p.2.kind = .parameter ∧ p.1 = runName)) ∧
    (∀ p ∈ entries a, p.2.kind = .component → (nominal .component p.1).isSome) ∧
    (∀ p ∈ entries a, nominal p.2.kind p.1 = some p.2.val) := by
  refine ⟨?_, ?_, ?_, ?_⟩
  · have := gather_setUp a hs; exact this
  · rintro p hp ⟨h1, h2⟩
    have h := (mem_entries a hs nominal hy p.1 p.2).mp hp
    rw [h1] at h
    exact hs.par_not_run _ h.1 h2
  · intro p hp hk
    have h := (mem_entries a hs nominal hy p.1 p.2).mp hp
    rw [hk] at h
    simp [h.2.1]
  · intro p hp
    have h := (mem_entries a hs nominal hy p.1 p.2).mp hp
    cases hk : p.2.kind with
    | component => rw [hk] at h; exact h.2.1
    | parameter => rw [hk] at h; exact h.2

/-- C14: with `n ≤ 11` elements `els` under analysis (they are exactly the elements of the specification, each
once), `run_analysis` completes and simulates `2^n + 1` netlists: first the nominal one, then for each
`r < 2^n` the one where element number `i` is at its lower corner if bit `i` of `r` is set and at its upper
corner otherwise, everything else being nominal. Partial: assumes `InSync` (the values in memory are those of
the replayed netlist); see the two counter-examples below. -/
theorem C14_run_r_is_corner_r (a : St) (hs : SetUp a) (nominal : Net) (hy : InSync a nominal) :
    ∃ (a' : St) (els : List Name), worstCase a = some (a', els) ∧ els.Nodup ∧
      (∀ ref : Name, ref ∈ els ↔ ∃ k v d, IsElement a nominal ref k v d) ∧
      (els.length ≤ 11 →
        a'.launched.length = 2 ^ els.length + 1 ∧
        a'.launched[0]? = some (nominal.put .parameter runName (.num (-1))) ∧
        ∀ r : ℕ, r < 2 ^ els.length → ∃ net : Net, a'.launched[r + 1]? = some net ∧
          net .parameter runName = some (.num (r : ℚ)) ∧
          (∀ (i : ℕ) (ref : Name) (k : Kind) (v : Val) (d : Dev), els[i]? = some ref →
            IsElement a nominal ref k v d → net k ref = some (if r.testBit i then low v d else high v d)) ∧
          (∀ (k : Kind) (ref : Name), (∀ v d, ¬ IsElement a nominal ref k v d) →
            ¬(k = .parameter ∧ ref = runName) → net k ref = nominal k ref)) := by
  obtain ⟨hg, hrun, hc, hnom⟩ := common a hs nominal hy
  have hnd := entries_nodup a hs
  have hmem : ∀ ref : Name, ref ∈ (entries a).map Prod.fst ↔ ∃ k v d, IsElement a nominal ref k v d := by
    intro ref
    constructor
    · intro h
      obtain ⟨p, hp, rfl⟩ := List.mem_map.mp h
      exact ⟨_, _, _, (mem_entries a hs nominal hy p.1 p.2).mp hp⟩
    · rintro ⟨k, v, d, h⟩
      exact List.mem_map.mpr ⟨(ref, ⟨v, d, k⟩), (mem_entries a hs nominal hy ref ⟨v, d, k⟩).mpr h, rfl⟩
  by_cases hbig : 2 ^ (entries a).length ≥ 4096
  · refine ⟨{ a with launched := [] }, (entries a).map Prod.fst, ?_, hnd, hmem, ?_⟩
    · unfold worstCase
      simp only [hg, Option.bind_eq_bind, Option.bind_some]
      rw [if_pos (by simpa using hbig)]
    · intro hle
      simp only [List.length_map] at hle
      have : 2 ^ (entries a).length ≤ 2 ^ 11 := Nat.pow_le_pow_right (by norm_num) hle
      omega
  · have hpos : 0 < 2 ^ (entries a).length := Nat.two_pow_pos _
    obtain ⟨a', l', nets, h1, h2, h3, h4, -⟩ := loop_spec wcValue id
      ⟨(entries a).map Prod.fst, (entries a).reverse⟩ (entries a) (faithful_entries _ hnd)
      (fun p hp b => by rw [wcValue_eq _ (tol_num a hs nominal hy p hp)]; rfl) hrun nominal
      ({ a with launched := [nominal.put .parameter runName (.num (-1))],
                net := nominal.put .parameter runName (.num (-1)), added := true } : St)
      (2 ^ (entries a).length - 1) (by omega)
      (fun p hp hk => by
        show ((nominal.put .parameter runName (.num (-1))) .component p.1).isSome = true
        rw [Net.put_other _ _ _ _ _ _ (by simp)]; exact hc p hp hk)
      (fun k x _ hx => Net.put_other _ _ _ _ _ _ hx)
      (fun j hj => Or.inl (by
        simp only [id, Nat.zero_testBit, Nat.testBit_two_pow_sub_one]; simp [hj]))
      (2 ^ (entries a).length) (fun r hr => hr)
    refine ⟨a', (entries a).map Prod.fst, ?_, hnd, hmem, ?_⟩
    · unfold worstCase
      simp only [hg, Option.bind_eq_bind, Option.bind_some]
      rw [if_neg (by simpa using hbig)]
      have hp := played a nominal hy
      simp only [hp, Option.bind_some, Net.set, St.launch, List.nil_append, List.length_map]
      rw [h1]; rfl
    · intro _
      simp only [List.length_map]
      rw [h2]
      refine ⟨by simp [h3], by simp, ?_⟩
      intro r hr
      have hr' : r < nets.length := by omega
      have hR := h4 r hr'
      refine ⟨nets[r], by simp [hr'], hR.run.trans (by simp), ?_, ?_⟩
      · intro i ref k v d hi he
        have hme := (mem_entries a hs nominal hy ref ⟨v, d, k⟩).mpr he
        obtain ⟨hi', hie⟩ := List.getElem?_eq_some_iff.mp hi
        have hi2 : i < (entries a).length := by simpa using hi'
        have hei : (entries a)[i] = (ref, ⟨v, d, k⟩) := by
          have e1 : (entries a)[i].1 = ref := by simpa using hie
          have l1 := lookup_of_mem hnd (List.getElem_mem hi2)
          have l2 := lookup_of_mem hnd hme
          rw [e1] at l1; simp only at l2; rw [l1] at l2
          exact Prod.ext e1 (by simpa using l2)
        have := hR.elem i hi2
        rw [hei] at this
        rw [this, wcValue_eq _ (tol_num a hs nominal hy _ hme)]; rfl
      · intro k ref hno hnr
        apply hR.frame k ref _ hnr
        rintro p hp ⟨rfl, rfl⟩
        exact hno _ _ ((mem_entries a hs nominal hy p.1 p.2).mp hp)

/-- Bit strings of length `n` and the numbers below `2^n` correspond one to one. -/
theorem unique_run (n : ℕ) (f : ℕ → Bool) : ∃ r < 2 ^ n, (∀ i < n, r.testBit i = f i) ∧
    ∀ r' < 2 ^ n, (∀ i < n, r'.testBit i = f i) → r' = r := by
  refine ⟨Nat.ofBits (fun i : Fin n => f i), Nat.ofBits_lt_two_pow _, fun i hi => Nat.testBit_ofBits_lt _ i hi, ?_⟩
  intro r' hr' h
  apply Nat.eq_of_testBit_eq
  intro i
  by_cases hi : i < n
  · rw [h i hi, Nat.testBit_ofBits_lt _ i hi]
  · rw [Nat.testBit_ofBits_ge _ _ (by omega)]
    exact Nat.testBit_lt_two_pow (lt_of_lt_of_le hr' (Nat.pow_le_pow_right (by norm_num) (by omega)))

/-- C14: every choice of a corner for each element is simulated exactly once (besides the nominal run, which is
number 0), if each element has two different corners. -/
theorem C14_every_assignment_exactly_once (a : St) (hs : SetUp a) (nominal : Net) (hy : InSync a nominal)
    (hne : ∀ ref k v d, IsElement a nominal ref k v d → low v d ≠ high v d)
    (a' : St) (els : List Name) (hw : worstCase a = some (a', els)) (h11 : els.length ≤ 11) (lowSide : Name → Bool) :
    ∃! j : ℕ, 0 < j ∧ ∃ net : Net, a'.launched[j]? = some net ∧
      ∀ (ref : Name) (k : Kind) (v : Val) (d : Dev), IsElement a nominal ref k v d →
        net k ref = some (if lowSide ref then low v d else high v d) := by
  obtain ⟨a1, els1, hw1, hnd, hmem, hmain⟩ := C14_run_r_is_corner_r a hs nominal hy
  rw [hw] at hw1
  simp only [Option.some.injEq, Prod.mk.injEq] at hw1
  obtain ⟨rfl, rfl⟩ := hw1
  obtain ⟨hlen, -, hruns⟩ := hmain h11
  obtain ⟨r, hr, hbits, huniq⟩ := unique_run els.length (fun i => (els[i]?).elim false lowSide)
  obtain ⟨net, hnet, -, hel, -⟩ := hruns r hr
  refine ⟨r + 1, ⟨by omega, net, hnet, ?_⟩, ?_⟩
  · intro ref k v d he
    obtain ⟨i, hi, hie⟩ := List.getElem_of_mem ((hmem ref).mpr ⟨k, v, d, he⟩)
    have hi' : els[i]? = some ref := by rw [List.getElem?_eq_getElem hi, hie]
    have hb := hbits i hi
    rw [hi'] at hb; simp only [Option.elim_some] at hb
    rw [hel i ref k v d hi' he, hb]
  · rintro j ⟨hj, net', hnet', hall⟩
    obtain ⟨r', rfl⟩ : ∃ r', j = r' + 1 := ⟨j - 1, by omega⟩
    have hr' : r' < 2 ^ els.length := by
      have := (List.getElem?_eq_some_iff.mp hnet').1
      omega
    obtain ⟨net'', hnet'', -, hel', -⟩ := hruns r' hr'
    rw [hnet'] at hnet''
    simp only [Option.some.injEq] at hnet''
    subst hnet''
    have : r' = r := by
      apply huniq r' hr'
      intro i hi
      have hi' : els[i]? = some els[i] := List.getElem?_eq_getElem hi
      rw [hi', Option.elim_some]
      obtain ⟨k, v, d, he⟩ := (hmem els[i]).mp (List.getElem_mem hi)
      have h1 := hel' i _ k v d hi' he
      rw [hall _ k v d he] at h1
      have hlh := hne _ k v d he
      clear huniq hruns hel hel' hall hbits hmem hne
      revert h1
      cases lowSide els[i] <;> cases r'.testBit i
      · simp
      · intro h1; exact absurd (by simpa using h1) (Ne.symm hlh)
      · intro h1; exact absurd (by simpa using h1) hlh
      · simp
    omega

/-- C14, boundary: from 12 elements on nothing at all is simulated (the message announces a limitation to 4096
runs, worst_case.py 143-146). -/
theorem C14_twelve_elements_nothing_simulated (a a' : St) (els : List Name)
    (hw : worstCase a = some (a', els)) (h : 12 ≤ els.length) : a'.launched = [] := by
  unfold worstCase at hw
  simp only [Option.bind_eq_bind] at hw
  obtain ⟨g, _, hw⟩ := Option.bind_eq_some_iff.mp hw
  split at hw
  · simp only [Option.some.injEq, Prod.mk.injEq] at hw; rw [← hw.1]
  · next hlt =>
    exfalso
    obtain ⟨_, _, hw⟩ := Option.bind_eq_some_iff.mp hw
    obtain ⟨_, _, hw⟩ := Option.bind_eq_some_iff.mp hw
    obtain ⟨_, _, hw⟩ := Option.bind_eq_some_iff.mp hw
    simp only [Option.some.injEq, Prod.mk.injEq] at hw
    rw [← hw.2] at h
    have : 2 ^ 12 ≤ 2 ^ g.els.length := Nat.pow_le_pow_right (by norm_num) h
    omega

/-- The deviated value used by the quick sensitivity analysis: `nominal·(1 + tol)`, or the minimum. -/
def deviated (v : Val) (d : Dev) : Val :=
  match d.typ with
  | .tolerance => high v d
  | _ => low v d

theorem qsValue_eq (e : Elem) (h : e.dev.typ ≠ .none ∧ (e.dev.typ = .tolerance → ∃ q, e.val = .num q)) (b : Bool) :
    qsValue e b = some (if b then deviated e.val e.dev else e.val) := by
  rcases e with ⟨v, d, k⟩
  obtain ⟨h1, h2⟩ := h
  simp only at h1 h2
  unfold qsValue deviated low high
  cases ht : d.typ with
  | tolerance =>
    obtain ⟨q, rfl⟩ := h2 ht
    cases b <;> simp [Dev.tolerance]; ring
  | minmax => cases b <;> simp
  | none => exact absurd ht h1

/-- C17: the quick sensitivity analysis with at most 4096 elements simulates the nominal netlist and then, for
each element number `k`, the netlist where that element is deviated and every other value is nominal. -/
theorem C17_one_element_per_run (a : St) (hs : SetUp a) (nominal : Net) (hy : InSync a nominal) :
    ∃ (a' : St) (els : List Name), quickSens a = some (a', els) ∧ els.Nodup ∧
      (∀ ref : Name, ref ∈ els ↔ ∃ k v d, IsElement a nominal ref k v d) ∧
      (els.length ≤ 4096 →
        a'.launched.length = els.length + 1 ∧
        a'.launched[0]? = some (nominal.put .parameter runName (.num (-1))) ∧
        ∀ (r : ℕ) (ref : Name) (k : Kind) (v : Val) (d : Dev), els[r]? = some ref → IsElement a nominal ref k v d →
          a'.launched[r + 1]? =
            some ((nominal.put k ref (deviated v d)).put .parameter runName (.num (r : ℚ)))) := by
  obtain ⟨hg, hrun, hc, hnom⟩ := common a hs nominal hy
  have hnd := entries_nodup a hs
  have hmem : ∀ ref : Name, ref ∈ (entries a).map Prod.fst ↔ ∃ k v d, IsElement a nominal ref k v d := by
    intro ref
    constructor
    · intro h
      obtain ⟨p, hp, rfl⟩ := List.mem_map.mp h
      exact ⟨_, _, _, (mem_entries a hs nominal hy p.1 p.2).mp hp⟩
    · rintro ⟨k, v, d, h⟩
      exact List.mem_map.mpr ⟨(ref, ⟨v, d, k⟩), (mem_entries a hs nominal hy ref ⟨v, d, k⟩).mpr h, rfl⟩
  by_cases hbig : (entries a).length > 4096
  · refine ⟨{ a with launched := [] }, (entries a).map Prod.fst, ?_, hnd, hmem, ?_⟩
    · unfold quickSens
      simp only [hg, Option.bind_eq_bind, Option.bind_some]
      rw [if_pos (by simpa using hbig)]
    · intro hle
      simp only [List.length_map] at hle
      omega
  · have hval : ∀ p ∈ entries a, ∀ b, qsValue p.2 b = some (if b then deviated p.2.val p.2.dev else p.2.val) :=
      fun p hp b => qsValue_eq _ (tol_num a hs nominal hy p hp) b
    obtain ⟨a', l', nets, h1, h2, h3, h4, -⟩ := loop_spec qsValue (2 ^ ·)
      ⟨(entries a).map Prod.fst, (entries a).reverse⟩ (entries a) (faithful_entries _ hnd)
      (fun p hp b => by rw [hval p hp]; rfl) hrun nominal
      ({ a with launched := [nominal.put .parameter runName (.num (-1))],
                net := nominal.put .parameter runName (.num (-1)), added := true } : St)
      0 (Nat.two_pow_pos _)
      (fun p hp hk => by
        show ((nominal.put .parameter runName (.num (-1))) .component p.1).isSome = true
        rw [Net.put_other _ _ _ _ _ _ (by simp)]; exact hc p hp hk)
      (fun k x _ hx => Net.put_other _ _ _ _ _ _ hx)
      (fun j hj => Or.inr (by
        show (nominal.put .parameter runName (.num (-1))) _ _ = _
        rw [Net.put_other _ _ _ _ _ _ (hrun _ (List.getElem_mem hj)), hval _ (List.getElem_mem hj)]
        simp [hnom _ (List.getElem_mem hj)]))
      (entries a).length (fun r hr => Nat.pow_lt_pow_right (by norm_num) hr)
    refine ⟨a', (entries a).map Prod.fst, ?_, hnd, hmem, ?_⟩
    · unfold quickSens
      simp only [hg, Option.bind_eq_bind, Option.bind_some]
      rw [if_neg (by simpa using hbig)]
      have hp := played a nominal hy
      simp only [hp, Option.bind_some, Net.set, St.launch, List.nil_append, List.length_map]
      rw [h1]; rfl
    · intro _
      simp only [List.length_map]
      rw [h2]
      refine ⟨by simp [h3], by simp, ?_⟩
      intro r ref k v d hi he
      have hme := (mem_entries a hs nominal hy ref ⟨v, d, k⟩).mpr he
      obtain ⟨hi', hie⟩ := List.getElem?_eq_some_iff.mp hi
      have hi2 : r < (entries a).length := by simpa using hi'
      have hr' : r < nets.length := by omega
      have hR := h4 r hr'
      have hei : (entries a)[r] = (ref, ⟨v, d, k⟩) := by
        have e1 : (entries a)[r].1 = ref := by simpa using hie
        have l1 := lookup_of_mem hnd (List.getElem_mem hi2)
        have l2 := lookup_of_mem hnd hme
        rw [e1] at l1; simp only at l2; rw [l1] at l2
        exact Prod.ext e1 (by simpa using l2)
      have hgoal : nets[r] = (nominal.put k ref (deviated v d)).put .parameter runName (.num (r : ℚ)) := by
        funext k' x
        by_cases hx : k' = .parameter ∧ x = runName
        · obtain ⟨rfl, rfl⟩ := hx
          rw [Net.put_same, hR.run]; simp
        · rw [Net.put_other _ _ _ _ _ _ hx]
          by_cases hin : ∃ p ∈ entries a, k' = p.2.kind ∧ x = p.1
          · obtain ⟨p, hp, rfl, rfl⟩ := hin
            obtain ⟨j, hj, rfl⟩ := List.getElem_of_mem hp
            rw [hR.elem j hj, hval _ hp, Nat.testBit_two_pow]
            by_cases hjr : r = j
            · subst hjr
              rw [hei]; simp [Net.put_same]
            · have hne : ¬((entries a)[j].2.kind = k ∧ (entries a)[j].1 = ref) := by
                rintro ⟨-, h⟩
                have : ((entries a).map Prod.fst)[j]'(by simpa using hj) =
                    ((entries a).map Prod.fst)[r]'(by simpa using hi2) := by
                  rw [List.getElem_map, List.getElem_map, h, hei]
                exact hjr ((List.Nodup.getElem_inj_iff hnd).mp this).symm
              rw [Net.put_other _ _ _ _ _ _ hne, hnom _ hp]
              simp [hjr]
          · rw [hR.frame k' x (fun p hp h => hin ⟨p, hp, h⟩) hx, Net.put_other]
            rintro ⟨rfl, rfl⟩
            exact hin ⟨_, hme, rfl, rfl⟩
      rw [List.cons_append, List.nil_append, List.getElem?_cons_succ, List.getElem?_eq_getElem hr', hgoal]

/-! ### Concrete cases and counter-examples -/

def R1 : Name := ['R', '1']
def C1 : Name := ['C', '1']

def file1 : Net := fun k r =>
  if k = .component ∧ r = R1 then some (.num 1000) else
  if k = .component ∧ r = C1 then some (.num 5) else none

def tol1 : List (Char × Dev) :=
  [('R', .fromTolerance (1/10)), ('C', .no), ('L', .no), ('V', .no), ('I', .no)]

/-- A circuit with a resistor of 10% and a capacitor between 4 and 7, nothing recorded. -/
def st1 : St := { comps := [R1, C1], file := file1, net := file1, received := [], added := false,
                  deviceDev := [(C1, .fromMinMax 4 7)], paramDev := [], defaultTol := tol1, launched := [] }

theorem st1_setUp : SetUp st1 where
  comps_nodup := by decide
  comps_exist := by decide
  dev_nodup := by decide
  dev_comps := by
    intro p hp; simp only [st1, List.mem_singleton] at hp; subst hp
    exact ⟨by decide, 'C', by decide, rfl⟩
  tol_keys := by decide
  par_nodup := by decide
  par_exist := by decide
  par_minmax := by decide
  par_not_comp := by decide
  par_not_run := by decide

theorem st1_inSync : InSync st1 file1 where
  replay := rfl
  comp := fun _ _ => rfl
  param := by decide

/-- The hypotheses of C14 and C17 hold for `st1`, whose two elements are C1 and R1 and whose four corners are: -/
example : (worstCase st1).map (fun p => (p.2, p.1.launched.map (fun n => (n .component C1, n .component R1)))) =
    some ([C1, R1], [(some (.num 5), some (.num 1000)),
      (some (.num 7), some (.num 1100)), (some (.num 4), some (.num 1100)),
      (some (.num 7), some (.num 900)), (some (.num 4), some (.num 900))]) := by decide +kernel

/-- C14 counter-example 1 on the unchanged code: a set-up command that was recorded (and not yet played) changes
R1 to 2000. The nominal run uses 2000 but the corner runs are computed from the value still in memory (1000). -/
theorem C14_recorded_value_ignored_by_corners :
    (worstCase { st1 with received := [.setComponent R1 (.num 2000)] }).map
        (fun p => p.1.launched.map (fun n => n .component R1)) =
      some [some (.num 2000), some (.num 1100), some (.num 1100), some (.num 900), some (.num 900)] := by
  decide +kernel

/-- C14 counter-example 2 on the unchanged code: running the analysis a second time takes the values left by the
last corner (R1 = 900, C1 = 4) as nominal, so the corners drift (R1: 990 and 810) while the nominal run is right. -/
theorem C14_second_analysis_drifts :
    ((worstCase st1).bind (fun p => worstCase p.1)).map (fun p => p.1.launched.map (fun n => n .component R1)) =
      some [some (.num 1000), some (.num 990), some (.num 990), some (.num 810), some (.num 810)] := by
  decide +kernel

example : (quickSens st1).map (fun p => (p.2, p.1.launched.map (fun n => (n .component C1, n .component R1)))) =
    some ([C1, R1], [(some (.num 5), some (.num 1000)), (some (.num 4), some (.num 1000)),
      (some (.num 5), some (.num 1100))]) := by decide +kernel

end Props.Analysis
