import Verif.Model.Testbench
import Verif.Props.Analysis
import Mathlib.Data.List.Range
import Mathlib.Algebra.BigOperators.Group.List.Basic
import Mathlib.Algebra.Order.BigOperators.Group.List
import Mathlib.Algebra.BigOperators.Ring.List
import Mathlib.Tactic.Linarith
import Mathlib.Tactic.FieldSimp
/-
C15 (testbench corner selector), C16 (pairs of runs), C18 (batches), C51 (percentages).
-/
namespace Props.Testbench
open Model.Analysis Model.Testbench Lemmas.Analysis Spec.Tolerance Props.Analysis

/-! ### C15 -/

theorem floor_div_pow (run idx : ℕ) : ⌊((run : ℤ) : ℚ) / 2 ^ idx⌋ = ((run / 2 ^ idx : ℕ) : ℤ) := by
  have : ((run : ℤ) : ℚ) / 2 ^ idx = ((run : ℚ)) / ((2 ^ idx : ℕ) : ℚ) := by push_cast; rfl
  rw [this, Rat.floor_natCast_div_natCast]
  exact (Int.natCast_ediv _ _).symm

/-- C15: the emitted selector `binary(run, idx)` is bit `idx` of the run number. -/
theorem C15_binary_is_the_bit (run idx : ℕ) :
    binary (run : ℤ) idx = if run.testBit idx then 1 else 0 := by
  unfold binary
  rw [floor_div_pow, floor_div_pow, pow_succ, ← Nat.div_div_eq_div_mul]
  have h := Nat.testBit_eq_decide_div_mod_eq (x := run) (i := idx)
  rw [h]
  have h2 := Nat.div_add_mod (run / 2 ^ idx) 2
  rcases Nat.mod_two_eq_zero_or_one (run / 2 ^ idx) with h1 | h1
  · rw [h1] at h2; rw [h1]; simp only [Nat.zero_ne_one, decide_false, Bool.false_eq_true, if_false]; omega
  · rw [h1] at h2; rw [h1]; simp only [decide_true, if_true]; omega

/-- the assignments as computed from the entries -/
def setsFrom (i : ℕ) : List (Name × Elem) → List (Kind × Name × Formula)
  | [] => []
  | p :: l => (match formulaOf p.2.val p.2.dev i with
      | some f => [(p.2.kind, p.1, f)]
      | none => []) ++ setsFrom (i + 1) l

theorem setsFrom_append (i : ℕ) (l1 l2 : List (Name × Elem)) :
    setsFrom i (l1 ++ l2) = setsFrom i l1 ++ setsFrom (i + l1.length) l2 := by
  induction l1 generalizing i with
  | nil => simp [setsFrom]
  | cons p l ih => simp [setsFrom, ih, Nat.add_assoc, Nat.add_comm 1]

theorem prep_gen {β : Type} (f : Prep → β → Option Prep) (ent : β → Option (Name × Elem)) (ok : β → Prop)
    (hf : ∀ p b, ok b → f p b = some ⟨p.index + (ent b).toList.length, p.els ++ (ent b).toList.map Prod.fst,
      p.sets ++ setsFrom p.index (ent b).toList⟩)
    (l : List β) (hok : ∀ b ∈ l, ok b) (p : Prep) :
    l.foldlM f p = some ⟨p.index + (l.filterMap ent).length, p.els ++ (l.filterMap ent).map Prod.fst,
      p.sets ++ setsFrom p.index (l.filterMap ent)⟩ := by
  induction l generalizing p with
  | nil => simp [setsFrom]
  | cons b l ih =>
    rw [List.foldlM_cons, hf p b (hok b (by simp))]
    simp only [Option.bind_eq_bind, Option.bind_some]
    rw [ih (fun x hx => hok x (by simp [hx]))]
    cases h : ent b with
    | none => simp [h, setsFrom]
    | some q => simp [h, setsFrom, Nat.add_assoc, Nat.add_comm 1]

theorem prepComp_eq (a : St) (p : Prep) (ref : Name) (h : (a.valueDev ref).isSome) :
    prepComp a p ref = some ⟨p.index + (compEntry a ref).toList.length,
      p.els ++ (compEntry a ref).toList.map Prod.fst, p.sets ++ setsFrom p.index (compEntry a ref).toList⟩ := by
  obtain ⟨⟨v, d⟩, hv⟩ := Option.isSome_iff_exists.mp h
  unfold prepComp compEntry
  simp only [hv, Option.bind_eq_bind, Option.bind_some]
  split
  · simp [setsFrom]
  · next hnv =>
    have : d.typ ≠ .none := by
      intro ht; apply hnv; simp [Dev.isNotValid, ht]
    cases ht : d.typ <;> simp_all [formulaOf, setsFrom]

theorem prepParam_eq (a : St) (p : Prep) (x : Name × Dev) (h : (a.net .parameter x.1).isSome) (hm : x.2.typ = .minmax) :
    prepParam a p x = some ⟨p.index + (paramEntry a x).toList.length,
      p.els ++ (paramEntry a x).toList.map Prod.fst, p.sets ++ setsFrom p.index (paramEntry a x).toList⟩ := by
  obtain ⟨v, hv⟩ := Option.isSome_iff_exists.mp h
  unfold prepParam paramEntry
  simp [hv, hm, formulaOf, setsFrom]

theorem prepDefault_eq (a : St) (p : Prep) (ref : Name) (h : (a.valueDev ref).isSome) :
    prepDefault a p ref = some ⟨p.index + (defEntry a ref).toList.length,
      p.els ++ (defEntry a ref).toList.map Prod.fst, p.sets ++ setsFrom p.index (defEntry a ref).toList⟩ := by
  unfold prepDefault defEntry
  split
  · simp [setsFrom]
  · exact prepComp_eq a p ref h

theorem prepare_eq (a : St) (hs : SetUp a) :
    prepare a = some (setsFrom 0 (entries a), (entries a).map Prod.fst, 2 ^ (entries a).length - 1) := by
  have h1 : ∀ ref ∈ a.deviceDev.map Prod.fst, (a.valueDev ref).isSome := by
    intro ref href
    obtain ⟨p, hp, rfl⟩ := List.mem_map.mp href
    obtain ⟨h1, c, hc, hc'⟩ := hs.dev_comps p hp
    exact valueDev_of a _ c hc' hc (hs.comps_exist _ h1)
  have h3 : ∀ ref ∈ defaultRefs a, (a.valueDev ref).isSome := by
    intro ref href
    obtain ⟨h1, c, hc, hc'⟩ := (mem_defaultRefs a ref).mp href
    rw [hs.tol_keys] at hc
    exact valueDev_of a _ c hc' hc (hs.comps_exist _ h1)
  unfold prepare
  rw [prep_gen (prepComp a) (compEntry a) _ (fun p b hb => prepComp_eq a p b hb) _ h1]
  simp only [Option.bind_eq_bind, Option.bind_some]
  rw [prep_gen (prepParam a) (paramEntry a) (fun x => (a.net .parameter x.1).isSome ∧ x.2.typ = .minmax)
    (fun p b hb => prepParam_eq a p b hb.1 hb.2) _ (fun b hb => ⟨hs.par_exist b hb, hs.par_minmax b hb⟩)]
  simp only [Option.bind_some]
  rw [prep_gen (prepDefault a) (defEntry a) _ (fun p b hb => prepDefault_eq a p b hb) _ h3]
  simp only [Option.bind_some, entries]
  simp [setsFrom_append, Nat.add_assoc]

theorem mem_setsFrom (i : ℕ) (l : List (Name × Elem)) (k : Kind) (ref : Name) (f : Formula) :
    (k, ref, f) ∈ setsFrom i l ↔
      ∃ (j : ℕ) (h : j < l.length), l[j].1 = ref ∧ l[j].2.kind = k ∧
        formulaOf l[j].2.val l[j].2.dev (i + j) = some f := by
  induction l generalizing i with
  | nil => simp [setsFrom]
  | cons p l ih =>
    simp only [setsFrom, List.mem_append, ih]
    constructor
    · rintro (h | ⟨j, hj, h1, h2, h3⟩)
      · refine ⟨0, by simp, ?_⟩
        cases hf : formulaOf p.2.val p.2.dev i with
        | none => rw [hf] at h; simp at h
        | some f' =>
          rw [hf] at h
          simp only [List.mem_singleton, Prod.mk.injEq] at h
          obtain ⟨rfl, rfl, rfl⟩ := h
          exact ⟨rfl, rfl, hf⟩
      · exact ⟨j + 1, by simpa using hj, h1, h2, by simpa [Nat.add_assoc, Nat.add_comm 1] using h3⟩
    · rintro ⟨j, hj, h1, h2, h3⟩
      rcases j with _ | j
      · left
        simp only [List.getElem_cons_zero, Nat.add_zero] at h1 h2 h3
        rw [h3]; simp [h1, h2]
      · right
        exact ⟨j, by simpa using hj, h1, h2, by simpa [Nat.add_assoc, Nat.add_comm 1] using h3⟩

/-- C15: the worst-case testbench assigns one expression to each element (the elements being those of the
specification, numbered by their position in `els`), with run numbers −1 … `2^n − 1`; at run −1 each expression is
the nominal value, and at run `r` element number `i` is at its upper corner if bit `i` of `r` is set, at its lower
corner otherwise. -/
theorem C15_testbench_corners (a : St) (hs : SetUp a) (nominal : Net) (hy : InSync a nominal) :
    ∃ (sets : List (Kind × Name × Formula)) (els : List Name), prepare a = some (sets, els, 2 ^ els.length - 1) ∧
      els.Nodup ∧ (sets.map (fun s => s.2.1)) = els ∧
      (∀ ref : Name, ref ∈ els ↔ ∃ k v d, IsElement a nominal ref k v d) ∧
      ∀ (i : ℕ) (ref : Name) (k : Kind) (v : Val) (d : Dev), els[i]? = some ref → IsElement a nominal ref k v d →
        ∃ f : Formula, (k, ref, f) ∈ sets ∧ f.eval (-1) = some v ∧
          ∀ r : ℕ, f.eval (r : ℤ) = some (if r.testBit i then high v d else low v d) := by
  have hnd := entries_nodup a hs
  have hnone : ∀ p ∈ entries a, ∀ i, (formulaOf p.2.val p.2.dev i).isSome := by
    intro p hp i
    have := (tol_num a hs nominal hy p hp).1
    unfold formulaOf
    cases ht : p.2.dev.typ <;> simp_all
  have hnames : ∀ (l : List (Name × Elem)) (i : ℕ), (∀ p ∈ l, ∀ i, (formulaOf p.2.val p.2.dev i).isSome) →
      (setsFrom i l).map (fun s => s.2.1) = l.map Prod.fst := by
    intro l
    induction l with
    | nil => intros; rfl
    | cons p l ih =>
      intro i h
      obtain ⟨f, hf⟩ := Option.isSome_iff_exists.mp (h p (by simp) i)
      simp only [setsFrom, hf, List.map_append, ih (i + 1) (fun q hq => h q (by simp [hq]))]
      rfl
  refine ⟨setsFrom 0 (entries a), (entries a).map Prod.fst, by rw [prepare_eq a hs]; simp, hnd,
    hnames _ _ hnone, ?_, ?_⟩
  · intro ref
    constructor
    · intro h
      obtain ⟨p, hp, rfl⟩ := List.mem_map.mp h
      exact ⟨_, _, _, (mem_entries a hs nominal hy p.1 p.2).mp hp⟩
    · rintro ⟨k, v, d, h⟩
      exact List.mem_map.mpr ⟨(ref, ⟨v, d, k⟩), (mem_entries a hs nominal hy ref ⟨v, d, k⟩).mpr h, rfl⟩
  · intro i ref k v d hi he
    have hme := (mem_entries a hs nominal hy ref ⟨v, d, k⟩).mpr he
    obtain ⟨hi', hie⟩ := List.getElem?_eq_some_iff.mp hi
    have hi2 : i < (entries a).length := by simpa using hi'
    have hei : (entries a)[i] = (ref, ⟨v, d, k⟩) := by
      have e1 : (entries a)[i].1 = ref := by simpa using hie
      have l1 := lookup_of_mem hnd (List.getElem_mem hi2)
      have l2 := lookup_of_mem hnd hme
      rw [e1] at l1; simp only at l2; rw [l1] at l2
      exact Prod.ext e1 (by simpa using l2)
    obtain ⟨f, hf⟩ := Option.isSome_iff_exists.mp (hnone _ hme i)
    simp only at hf
    refine ⟨f, (mem_setsFrom _ _ _ _ _).mpr ⟨i, hi2, by simp [hei], by simp [hei], by simpa [hei] using hf⟩, ?_, ?_⟩
    · have htn := tol_num a hs nominal hy _ hme
      simp only at htn
      unfold formulaOf at hf
      cases ht : d.typ <;> rw [ht] at hf <;> simp at hf <;> subst hf <;> simp [Formula.eval]
    · intro r
      have htn := tol_num a hs nominal hy _ hme
      simp only at htn
      have hr : ¬((r : ℤ) < 0) := by omega
      unfold formulaOf at hf
      cases ht : d.typ with
      | tolerance =>
        obtain ⟨q, rfl⟩ := htn.2 ht
        rw [ht] at hf; simp at hf; subst hf
        simp only [Formula.eval, hr, if_false, C15_binary_is_the_bit]
        cases r.testBit i <;> simp [low, high, ht, Dev.tolerance] <;> ring
      | minmax =>
        rw [ht] at hf; simp at hf; subst hf
        simp only [Formula.eval, hr, if_false, C15_binary_is_the_bit]
        cases r.testBit i <;> simp [low, high, ht]
      | none => exact absurd ht htn.1

/-- C15: testbench run `r` and analysis run `2^n − 1 − r` are the same corner (bits are complemented). -/
theorem C15_testbench_mirrors_analysis (n r i : ℕ) (hr : r < 2 ^ n) (hi : i < n) :
    (2 ^ n - 1 - r).testBit i = !r.testBit i := by
  have := Nat.testBit_two_pow_sub_succ hr i
  rw [show 2 ^ n - 1 - r = 2 ^ n - (r + 1) by omega, this]
  simp [hi]

/-- C15 on `st1` of `Props.Analysis`: the formulas and the last run number. -/
example : prepare st1 = some ([(.component, C1, .wc1 (.num 5) 4 7 0), (.component, R1, .wc (.num 1000) (1/10) 1)],
    [C1, R1], 3) := by decide +kernel

/-! ### C16 -/

theorem and_bit_eq_zero (run i : ℕ) : run &&& (1 <<< i) = 0 ↔ run.testBit i = false := by
  rw [Nat.one_shiftLeft]
  constructor
  · intro h
    have := congrArg (fun x => Nat.testBit x i) h
    simpa [Nat.testBit_and, Nat.testBit_two_pow_self] using this
  · intro h
    apply Nat.eq_of_testBit_eq
    intro j
    rw [Nat.testBit_and, Nat.testBit_two_pow, Nat.zero_testBit]
    by_cases hj : i = j
    · subst hj; simp [h]
    · simp [hj]

theorem testBit_or_bit (run i j : ℕ) : (run ||| (1 <<< i)).testBit j = (run.testBit j || decide (i = j)) := by
  rw [Nat.one_shiftLeft, Nat.testBit_or, Nat.testBit_two_pow]

theorem or_bit_lt (n run i : ℕ) (hr : run < 2 ^ n) (hi : i < n) : run ||| (1 <<< i) < 2 ^ n := by
  rw [Nat.one_shiftLeft]
  exact Nat.or_lt_two_pow hr (Nat.pow_lt_pow_right (by norm_num) hi)

/-- C16: the pairs compared for element `i`: every run is in exactly one pair (as a multiset, first and second
members together are all the runs `0 … 2^n − 1`, each once), and the two runs of a pair differ in bit `i` and in
no other bit. -/
theorem C16_pairs_partition_runs (n i : ℕ) (hi : i < n) :
    ((diffPairs (2 ^ n) i).map Prod.fst ++ (diffPairs (2 ^ n) i).map Prod.snd).Perm (List.range (2 ^ n)) ∧
    ∀ p ∈ diffPairs (2 ^ n) i, ∀ j : ℕ, p.1.testBit j ≠ p.2.testBit j ↔ j = i := by
  have hm : ∀ p ∈ diffPairs (2 ^ n) i, p.1 < 2 ^ n ∧ p.1.testBit i = false ∧ p.2 = p.1 ||| (1 <<< i) := by
    intro p hp
    simp only [diffPairs, List.mem_map, List.mem_filter, List.mem_range, decide_eq_true_eq] at hp
    obtain ⟨r, ⟨h1, h2⟩, rfl⟩ := hp
    exact ⟨h1, (and_bit_eq_zero r i).mp h2, rfl⟩
  constructor
  · have hfst : (diffPairs (2 ^ n) i).map Prod.fst =
        (List.range (2 ^ n)).filter (fun r => decide (r &&& (1 <<< i) = 0)) := by
      simp [diffPairs, Function.comp_def]
    have hsnd : (diffPairs (2 ^ n) i).map Prod.snd =
        ((List.range (2 ^ n)).filter (fun r => decide (r &&& (1 <<< i) = 0))).map (fun r => r ||| (1 <<< i)) := by
      simp [diffPairs, Function.comp_def]
    rw [List.perm_ext_iff_of_nodup]
    · intro r
      rw [hfst, hsnd]
      simp only [List.mem_append, List.mem_filter, List.mem_range, decide_eq_true_eq, List.mem_map, and_bit_eq_zero]
      constructor
      · rintro (h | ⟨r', ⟨h1, h2⟩, rfl⟩)
        · exact h.1
        · exact or_bit_lt n r' i h1 hi
      · intro hr
        cases hb : r.testBit i with
        | false => exact Or.inl ⟨hr, rfl⟩
        | true =>
          right
          refine ⟨r ^^^ (1 <<< i), ⟨?_, ?_⟩, ?_⟩
          · rw [Nat.one_shiftLeft]; exact Nat.xor_lt_two_pow hr (Nat.pow_lt_pow_right (by norm_num) hi)
          · rw [Nat.one_shiftLeft, Nat.testBit_xor, Nat.testBit_two_pow_self, hb]; rfl
          · apply Nat.eq_of_testBit_eq
            intro j
            rw [testBit_or_bit, Nat.one_shiftLeft, Nat.testBit_xor, Nat.testBit_two_pow]
            by_cases hj : i = j
            · subst hj; simp [hb]
            · simp [hj]
    · rw [List.nodup_append]
      refine ⟨by rw [hfst]; exact List.nodup_range.filter _, ?_, ?_⟩
      · rw [hsnd]
        apply List.Nodup.map_on _ (List.nodup_range.filter _)
        intro x hx y hy hxy
        simp only [List.mem_filter, decide_eq_true_eq, and_bit_eq_zero] at hx hy
        apply Nat.eq_of_testBit_eq
        intro j
        by_cases hj : i = j
        · subst hj; rw [hx.2, hy.2]
        · have := congrArg (fun z => Nat.testBit z j) hxy
          simp only [testBit_or_bit, hj, decide_false, Bool.or_false] at this
          exact this
      · intro x hx y hy hxy
        subst hxy
        obtain ⟨p, hp, rfl⟩ := List.mem_map.mp hx
        obtain ⟨q, hq, hqe⟩ := List.mem_map.mp hy
        have h1 := (hm p hp).2.1
        have h2 := (hm q hq).2.2
        rw [← hqe, h2, testBit_or_bit] at h1
        simp at h1
    · exact List.nodup_range
  · intro p hp j
    obtain ⟨_, h2, h3⟩ := hm p hp
    rw [h3, testBit_or_bit]
    by_cases hj : i = j
    · subst hj; simp [h2]
    · have hj' : ¬ j = i := fun h => hj h.symm
      simp [hj, hj']

example : diffPairs (2 ^ 3) 1 = [(0, 2), (1, 3), (4, 6), (5, 7)] := by decide

theorem mapM_get (wc : List ℚ) (l : List (ℕ × ℕ)) (h : ∀ p ∈ l, p.1 < wc.length ∧ p.2 < wc.length) :
    l.mapM (fun p => do
      let x ← wc[p.1]?
      let y ← wc[p.2]?
      some |x - y|) = some (l.map (fun p => |wc.getD p.1 0 - wc.getD p.2 0|)) := by
  induction l with
  | nil => rfl
  | cons p l ih =>
    obtain ⟨h1, h2⟩ := h p (by simp)
    rw [List.mapM_cons, ih (fun q hq => h q (by simp [hq]))]
    simp [h1, h2]

/-- C16: the sensitivity figure of element `i` is the mean, over those pairs, of the absolute difference of the
measurements; no index error can happen. -/
theorem C16_mean_over_pairs (n i : ℕ) (hi : i < n) (wc : List ℚ) (hw : wc.length = 2 ^ n) :
    meanDiff wc i = some (((diffPairs (2 ^ n) i).map (fun p => |wc.getD p.1 0 - wc.getD p.2 0|)).sum / 2 ^ (n - 1)) := by
  have hlen : (diffPairs (2 ^ n) i).length = 2 ^ (n - 1) := by
    have := (C16_pairs_partition_runs n i hi).1.length_eq
    simp only [List.length_append, List.length_map, List.length_range] at this
    have h2 : 2 ^ n = 2 * 2 ^ (n - 1) := by
      conv_lhs => rw [show n = (n - 1) + 1 by omega, pow_succ]
      ring
    omega
  unfold meanDiff
  rw [hw, mapM_get]
  · simp only [Option.bind_eq_bind, Option.bind_some, List.length_map, hlen]
    rw [if_neg (by positivity)]
    push_cast; rfl
  · intro p hp
    have h := (C16_pairs_partition_runs n i hi).1
    rw [hw]
    exact ⟨by simpa using h.subset (List.mem_append_left _ (List.mem_map_of_mem hp)),
      by simpa using h.subset (List.mem_append_right _ (List.mem_map_of_mem hp))⟩

/-! ### C51 percentages -/

theorem sum_map_div (l : List ℚ) (t : ℚ) : (l.map (fun s => s / t * 100)).sum = l.sum / t * 100 := by
  induction l with
  | nil => simp
  | cons x l ih => simp only [List.map_cons, List.sum_cons, ih]; ring

theorem mapM_some {α β : Type} (f : α → Option β) (g : α → β) (l : List α) (h : ∀ x ∈ l, f x = some (g x)) :
    l.mapM f = some (l.map g) := by
  induction l with
  | nil => rfl
  | cons x l ih =>
    rw [List.mapM_cons, h x (by simp), ih (fun y hy => h y (by simp [hy]))]; rfl

/-- C51: the worst-case sensitivities are non-negative and sum up to 100, one per element, as soon as some
measurement pair differs. -/
theorem C51_worst_case_percentages (n : ℕ) (wc : List ℚ) (hw : wc.length = 2 ^ n)
    (hdiff : ∃ i < n, ∃ p ∈ diffPairs (2 ^ n) i, wc.getD p.1 0 ≠ wc.getD p.2 0) :
    ∃ s : List ℚ, sensitivity wc n = some s ∧ s.length = n ∧ (∀ x ∈ s, 0 ≤ x ∧ x ≤ 100) ∧ s.sum = 100 := by
  let m : ℕ → ℚ := fun i => ((diffPairs (2 ^ n) i).map (fun p => |wc.getD p.1 0 - wc.getD p.2 0|)).sum / 2 ^ (n - 1)
  have hm : (List.range n).mapM (meanDiff wc) = some ((List.range n).map m) :=
    mapM_some _ m _ (fun i hi => C16_mean_over_pairs n i (by simpa using hi) wc hw)
  have hnn : ∀ x ∈ (List.range n).map m, 0 ≤ x := by
    intro x hx
    obtain ⟨i, _, rfl⟩ := List.mem_map.mp hx
    apply div_nonneg _ (by positivity)
    apply List.sum_nonneg
    intro y hy
    obtain ⟨p, _, rfl⟩ := List.mem_map.mp hy
    exact abs_nonneg _
  have hpos : 0 < ((List.range n).map m).sum := by
    obtain ⟨i, hi, p, hp, hne⟩ := hdiff
    have hmi : 0 < m i := by
      apply div_pos _ (by positivity)
      refine lt_of_lt_of_le (abs_pos.mpr (sub_ne_zero.mpr hne)) (List.single_le_sum ?_ _ (List.mem_map_of_mem hp))
      intro y hy
      obtain ⟨p, _, rfl⟩ := List.mem_map.mp hy
      exact abs_nonneg _
    exact lt_of_lt_of_le hmi (List.single_le_sum hnn _ (List.mem_map_of_mem (by simpa using hi)))
  refine ⟨((List.range n).map m).map (fun s => s / ((List.range n).map m).sum * 100), ?_, by simp, ?_, ?_⟩
  · unfold sensitivity
    rw [hm]
    simp only [Option.bind_eq_bind, Option.bind_some]
    exact mapM_some _ _ _ (fun x _ => by rw [if_neg hpos.ne'])
  · intro x hx
    obtain ⟨y, hy, rfl⟩ := List.mem_map.mp hx
    have h0 := hnn y hy
    have h1 : y ≤ ((List.range n).map m).sum := List.single_le_sum hnn y hy
    constructor
    · positivity
    · have : y / ((List.range n).map m).sum ≤ 1 := (div_le_one hpos).mpr h1
      linarith
  · rw [sum_map_div, div_self hpos.ne']; norm_num

/-- C51: when no measurement depends on any element the worst-case method raises (division by zero) … -/
theorem C51_worst_case_no_difference_raises (n : ℕ) (hn : 0 < n) (wc : List ℚ) (hw : wc.length = 2 ^ n)
    (hsame : ∀ i < n, ∀ p ∈ diffPairs (2 ^ n) i, wc.getD p.1 0 = wc.getD p.2 0) :
    sensitivity wc n = none := by
  have hm : (List.range n).mapM (meanDiff wc) = some ((List.range n).map (fun _ => (0 : ℚ))) :=
    mapM_some _ _ _ (fun i hi => by
      have hi' : i < n := by simpa using hi
      rw [C16_mean_over_pairs n i hi' wc hw]
      have : (diffPairs (2 ^ n) i).map (fun p => |wc.getD p.1 0 - wc.getD p.2 0|) = (diffPairs (2 ^ n) i).map (fun _ => (0 : ℚ)) := by
        apply List.map_congr_left
        intro p hp
        rw [hsame i hi' p hp]; simp
      rw [this]
      simp)
  unfold sensitivity
  obtain ⟨k, rfl⟩ : ∃ k, n = k + 1 := ⟨n - 1, by omega⟩
  simp [hm, List.replicate_succ, List.mapM_cons]

example : sensitivity [3, 3] 1 = none := by decide +kernel

/-- C51: … while the quick method returns zeros: its percentages are non-negative, one per element, and sum up to
100 unless no run differs from the nominal one. -/
theorem C51_quick_percentages (nominal : ℚ) (steps : List ℚ) :
    (quickSensitivity nominal steps).length = steps.length ∧
    (∀ x ∈ quickSensitivity nominal steps, 0 ≤ x ∧ x ≤ 100) ∧
    ((∃ s ∈ steps, s ≠ nominal) → (quickSensitivity nominal steps).sum = 100) ∧
    ((∀ s ∈ steps, s = nominal) → ∀ x ∈ quickSensitivity nominal steps, x = 0) := by
  have hnn : ∀ x ∈ steps.map (fun s => |s - nominal|), 0 ≤ x := by
    intro y hy
    obtain ⟨p, _, rfl⟩ := List.mem_map.mp hy
    exact abs_nonneg _
  have hsum := List.sum_nonneg hnn
  refine ⟨by simp [quickSensitivity], ?_, ?_, ?_⟩
  · intro x hx
    simp only [quickSensitivity, List.mem_map] at hx
    obtain ⟨y, ⟨s, hs, rfl⟩, rfl⟩ := hx
    split
    · next hne =>
      have hpos : 0 < (steps.map (fun s => |s - nominal|)).sum := lt_of_le_of_ne hsum (Ne.symm hne)
      have h1 : |s - nominal| ≤ (steps.map (fun s => |s - nominal|)).sum :=
        List.single_le_sum hnn _ (List.mem_map_of_mem hs)
      have h2 : |s - nominal| / (steps.map (fun s => |s - nominal|)).sum ≤ 1 := (div_le_one hpos).mpr h1
      constructor
      · have := abs_nonneg (s - nominal); positivity
      · linarith
    · simp
  · rintro ⟨s, hs, hne⟩
    have hpos : 0 < (steps.map (fun s => |s - nominal|)).sum :=
      lt_of_lt_of_le (abs_pos.mpr (sub_ne_zero.mpr hne)) (List.single_le_sum hnn _ (List.mem_map_of_mem hs))
    simp only [quickSensitivity, ne_eq, hpos.ne', not_false_eq_true, if_true]
    rw [sum_map_div, div_self hpos.ne']; norm_num
  · intro h x hx
    have hz : (steps.map (fun s => |s - nominal|)).sum = 0 := by
      apply List.sum_eq_zero
      intro y hy
      obtain ⟨s, hs, rfl⟩ := List.mem_map.mp hy
      simp [h s hs]
    simp only [quickSensitivity, List.mem_map] at hx
    obtain ⟨y, _, rfl⟩ := hx
    simp [hz]

example : sensitivity [1, 2, 4, 7] 2 = some [100 * 4 / 12, 100 * 8 / 12] := by decide +kernel

/-! ### C18 -/

theorem avoidOrphans_spec (total : ℤ) (fuel : ℕ) (rps : ℤ) (h1 : 1 ≤ rps) (h2 : rps ≤ total)
    (hf : total - rps ≤ fuel) :
    rps ≤ avoidOrphans total (fuel + 1) rps ∧ avoidOrphans total (fuel + 1) rps ≤ total ∧
      total % avoidOrphans total (fuel + 1) rps ≠ 1 := by
  induction fuel generalizing rps with
  | zero =>
    have : rps = total := by omega
    subst this
    unfold avoidOrphans
    rw [if_neg (by simp)]
    simp
  | succ fuel ih =>
    unfold avoidOrphans
    by_cases h : total % rps = 1
    · rw [if_pos h]
      have hne : rps ≠ total := by rintro rfl; simp at h
      obtain ⟨a, b, c⟩ := ih (rps + 1) (by omega) (by omega) (by omega)
      exact ⟨by omega, b, c⟩
    · rw [if_neg h]; exact ⟨le_refl _, h2, h⟩

/-- All the runs of a `.step param run first last 1` range. -/
def runsOf (b : ℤ × ℤ) : List ℤ := (List.range (b.2 - b.1 + 1).toNat).map (fun k : ℕ => b.1 + (k : ℤ))

/-- All the runs −1, 0, …, last. -/
def allRuns (last : ℤ) : List ℤ := (List.range (last + 2).toNat).map (fun k : ℕ => -1 + (k : ℤ))

theorem batches_aux (R T : ℕ) (hR : 0 < R) (m : ℕ) :
    ((List.range m).flatMap (fun k => (List.range (min R (T - R * k))).map (fun j => R * k + j))) =
      List.range (min (R * m) T) := by
  induction m with
  | zero => simp
  | succ m ih =>
    rw [List.range_succ, List.flatMap_append, ih]
    simp only [List.flatMap_cons, List.flatMap_nil, List.append_nil]
    rcases Nat.lt_or_ge T (R * m) with h | h
    · have e1 : min (R * m) T = T := by omega
      have e2 : T - R * m = 0 := by omega
      have e3 : min (R * (m + 1)) T = T := by rw [Nat.mul_add]; omega
      rw [e1, e2, e3]; simp
    · have e1 : min (R * m) T = R * m := by omega
      have e3 : min (R * (m + 1)) T = R * m + min R (T - R * m) := by rw [Nat.mul_add]; omega
      rw [e1, e3, List.range_add]

/-- The batch size that is used. -/
theorem batches_eq (last rps : ℤ) (hl : -1 ≤ last) (hr : 1 ≤ rps) :
    ∃ R : ℕ, 0 < R ∧ min rps (last + 2) ≤ R ∧ (R : ℤ) ≤ last + 2 ∧ (last + 2) % R ≠ 1 ∧
      batches last rps = (List.range ((last + 2 + R - 1) / R).toNat).map (fun k : ℕ =>
        (-1 + (R : ℤ) * (k : ℤ), if -1 + (R : ℤ) * (k : ℤ) + R - 1 > last then last else -1 + (R : ℤ) * (k : ℤ) + R - 1)) := by
  obtain ⟨h1, h2, h3⟩ := avoidOrphans_spec (last + 2) (last + 2).toNat (min rps (last + 2)) (by omega) (by omega) (by omega)
  generalize hQ : avoidOrphans (last + 2) ((last + 2).toNat + 1) (min rps (last + 2)) = Q at *
  obtain ⟨R, rfl⟩ : ∃ R : ℕ, Q = R := ⟨Q.toNat, by omega⟩
  refine ⟨R, by omega, h1, h2, h3, ?_⟩
  unfold batches
  simp only [hQ]
  unfold pyRange
  rw [List.map_map]
  have : last + 1 - -1 + (R : ℤ) - 1 = last + 2 + R - 1 := by ring
  rw [this]
  rfl

/-- C18: the ranges given to the simulator cover the runs −1 … last_run_number, each exactly once and in order. -/
theorem C18_batches_partition (last rps : ℤ) (hl : -1 ≤ last) (hr : 1 ≤ rps) :
    (batches last rps).flatMap runsOf = allRuns last := by
  obtain ⟨R, hR, -, hle, -, heq⟩ := batches_eq last rps hl hr
  obtain ⟨T, hT⟩ : ∃ T : ℕ, last = (T : ℤ) - 2 := ⟨(last + 2).toNat, by omega⟩
  subst hT
  rw [heq, List.flatMap_map]
  have hcount : (((T : ℤ) - 2 + 2 + R - 1) / R).toNat = (T + R - 1) / R := by
    rw [show (T : ℤ) - 2 + 2 + R - 1 = ((T + R - 1 : ℕ) : ℤ) by omega, ← Int.natCast_ediv, Int.toNat_natCast]
  rw [hcount]
  have hstep : ∀ k : ℕ, runsOf (-1 + (R : ℤ) * (k : ℤ), if -1 + (R : ℤ) * (k : ℤ) + R - 1 > (T : ℤ) - 2 then (T : ℤ) - 2 else -1 + (R : ℤ) * (k : ℤ) + R - 1)
      = ((List.range (min R (T - R * k))).map (fun j => R * k + j)).map (fun j : ℕ => (-1 : ℤ) + j) := by
    intro k
    unfold runsOf
    simp only [List.map_map]
    have : ((if -1 + (R : ℤ) * (k : ℤ) + R - 1 > (T : ℤ) - 2 then (T : ℤ) - 2 else -1 + (R : ℤ) * (k : ℤ) + R - 1)
        - (-1 + (R : ℤ) * (k : ℤ)) + 1).toNat = min R (T - R * k) := by
      have : (R : ℤ) * (k : ℤ) = ((R * k : ℕ) : ℤ) := by push_cast; rfl
      rw [this]
      split <;> omega
    rw [this]
    apply List.map_congr_left
    intro j _
    simp only [Function.comp]
    push_cast; ring
  simp only [hstep]
  rw [← List.map_flatMap, batches_aux R T hR]
  unfold allRuns
  have hmin : min (R * ((T + R - 1) / R)) T = T := by
    have := Nat.div_add_mod (T + R - 1) R
    have := Nat.mod_lt (T + R - 1) hR
    omega
  rw [hmin]
  congr 2
  omega

/-- C18: with at least two runs per simulation requested (and at least two runs in total) no simulation has a
single run; with `runs_per_sim = 1` all of them have exactly one. -/
theorem C18_no_orphan (last rps : ℤ) (hl : 0 ≤ last) (hr : 2 ≤ rps) :
    ∀ b ∈ batches last rps, 2 ≤ (runsOf b).length := by
  obtain ⟨R, hR, hge, hle, hmod, heq⟩ := batches_eq last rps (by omega) (by omega)
  intro b hb
  rw [heq] at hb
  obtain ⟨k, hk, rfl⟩ := List.mem_map.mp hb
  simp only [List.mem_range] at hk
  simp only [runsOf, List.length_map, List.length_range]
  obtain ⟨T, hT⟩ : ∃ T : ℕ, last = (T : ℤ) - 2 := ⟨(last + 2).toNat, by omega⟩
  subst hT
  have hcount : (((T : ℤ) - 2 + 2 + R - 1) / R).toNat = (T + R - 1) / R := by
    rw [show (T : ℤ) - 2 + 2 + R - 1 = ((T + R - 1 : ℕ) : ℤ) by omega, ← Int.natCast_ediv, Int.toNat_natCast]
  rw [hcount] at hk
  have hm : T % R ≠ 1 := by
    intro h; apply hmod
    rw [show (T : ℤ) - 2 + 2 = (T : ℤ) by ring, ← Int.natCast_emod, h]; rfl
  have hkT : R * k + 2 ≤ T := by
    have h1 : R * (k + 1) ≤ T + R - 1 := by
      calc R * (k + 1) ≤ R * ((T + R - 1) / R) := Nat.mul_le_mul_left _ hk
        _ ≤ _ := Nat.mul_div_le _ _
    rw [Nat.mul_add] at h1
    by_contra hcon
    have hTk : T = R * k + 1 := by omega
    apply hm
    rw [hTk, Nat.mul_add_mod]
    exact Nat.mod_eq_of_lt (by omega)
  have hc : (R : ℤ) * (k : ℤ) = ((R * k : ℕ) : ℤ) := by push_cast; rfl
  rw [hc]
  split <;> omega

/-- C18: the number of runs of a simulation can exceed the documented maximum `runs_per_sim`. -/
theorem C18_exceeds_requested_maximum : batches 3 2 = [(-1, 1), (2, 3)] := by decide +kernel

example : batches 7 4 = [(-1, 3), (4, 7)] ∧ batches 6 4 = [(-1, 2), (3, 6)] ∧ batches 0 512 = [(-1, 0)] := by
  decide +kernel

end Props.Testbench
