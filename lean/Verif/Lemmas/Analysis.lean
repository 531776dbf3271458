import Verif.Model.Analysis
import Mathlib.Data.List.Nodup
import Mathlib.Tactic.Ring
/-
Lemmas about the analysis toolkit model.
-/
namespace Lemmas.Analysis
open Model.Analysis

/-! ### gathering -/

/-- The entry that `check_and_add_component` adds for a component. -/
def compEntry (a : St) (ref : Name) : Option (Name × Elem) :=
  match a.valueDev ref with
  | some (v, d) => if d.isNotValid then none else some (ref, ⟨v, d, .component⟩)
  | none => none

def paramEntry (a : St) (p : Name × Dev) : Option (Name × Elem) :=
  match a.net .parameter p.1 with
  | some v => if p.2.typ = .tolerance ∨ p.2.typ = .minmax then some (p.1, ⟨v, p.2, .parameter⟩) else none
  | none => none

def defEntry (a : St) (ref : Name) : Option (Name × Elem) :=
  if ref ∈ a.deviceDev.map Prod.fst then none else compEntry a ref

/-- All entries in order. -/
def entries (a : St) : List (Name × Elem) :=
  (a.deviceDev.map Prod.fst).filterMap (compEntry a) ++ a.paramDev.filterMap (paramEntry a)
    ++ (defaultRefs a).filterMap (defEntry a)

theorem fold_gen {β : Type} (f : Gath → β → Option Gath) (ent : β → Option (Name × Elem)) (ok : β → Prop)
    (hf : ∀ g b, ok b → f g b = some ⟨g.els ++ (ent b).toList.map Prod.fst, (ent b).toList ++ g.dict⟩)
    (l : List β) (hok : ∀ b ∈ l, ok b) (g : Gath) :
    l.foldlM f g = some ⟨g.els ++ (l.filterMap ent).map Prod.fst, (l.filterMap ent).reverse ++ g.dict⟩ := by
  induction l generalizing g with
  | nil => simp
  | cons b l ih =>
    rw [List.foldlM_cons, hf g b (hok b (by simp))]
    simp only [Option.bind_eq_bind, Option.bind_some]
    rw [ih (fun x hx => hok x (by simp [hx]))]
    cases h : ent b <;> simp [h]

theorem addComp_eq (a : St) (g : Gath) (ref : Name) (h : (a.valueDev ref).isSome) :
    addComp a g ref = some ⟨g.els ++ (compEntry a ref).toList.map Prod.fst, (compEntry a ref).toList ++ g.dict⟩ := by
  obtain ⟨⟨v, d⟩, hv⟩ := Option.isSome_iff_exists.mp h
  unfold addComp compEntry
  simp only [hv, Option.bind_eq_bind, Option.bind_some]
  split <;> simp

theorem addParam_eq (a : St) (g : Gath) (p : Name × Dev) (h : (a.net .parameter p.1).isSome) :
    addParam a g p = some ⟨g.els ++ (paramEntry a p).toList.map Prod.fst, (paramEntry a p).toList ++ g.dict⟩ := by
  obtain ⟨v, hv⟩ := Option.isSome_iff_exists.mp h
  unfold addParam paramEntry
  simp only [hv, Option.bind_eq_bind, Option.bind_some]
  split <;> simp

theorem addDefault_eq (a : St) (g : Gath) (ref : Name)
    (h : ref ∈ a.deviceDev.map Prod.fst ∨ (a.valueDev ref).isSome) :
    addDefault a g ref = some ⟨g.els ++ (defEntry a ref).toList.map Prod.fst, (defEntry a ref).toList ++ g.dict⟩ := by
  unfold addDefault defEntry
  split
  · simp
  · next hn => exact addComp_eq a g ref (h.resolve_left hn)

/-- What `gather` computes when no exception occurs. -/
theorem gather_eq (a : St)
    (h1 : ∀ ref ∈ a.deviceDev.map Prod.fst, (a.valueDev ref).isSome)
    (h2 : ∀ p ∈ a.paramDev, (a.net .parameter p.1).isSome)
    (h3 : ∀ ref ∈ defaultRefs a, (a.valueDev ref).isSome) :
    gather a = some ⟨(entries a).map Prod.fst, (entries a).reverse⟩ := by
  unfold gather
  rw [fold_gen (addComp a) (compEntry a) (fun r => (a.valueDev r).isSome)
    (fun g b hb => addComp_eq a g b hb) _ h1]
  simp only [Option.bind_eq_bind, Option.bind_some]
  rw [fold_gen (addParam a) (paramEntry a) (fun p => (a.net .parameter p.1).isSome)
    (fun g b hb => addParam_eq a g b hb) _ h2]
  simp only [Option.bind_some]
  rw [fold_gen (addDefault a) (defEntry a) (fun r => r ∈ a.deviceDev.map Prod.fst ∨ (a.valueDev r).isSome)
    (fun g b hb => addDefault_eq a g b hb) _ (fun b hb => Or.inr (h3 b hb))]
  simp [entries]

theorem lookup_of_mem {α β : Type} [BEq α] [LawfulBEq α] {l : List (α × β)} (hn : (l.map Prod.fst).Nodup)
    {p : α × β} (hp : p ∈ l) : l.lookup p.1 = some p.2 := by
  induction l with
  | nil => simp at hp
  | cons q l ih =>
    simp only [List.map_cons, List.nodup_cons] at hn
    rcases List.mem_cons.mp hp with rfl | hp
    · simp [List.lookup]
    · have hne : p.1 ≠ q.1 := by
        rintro he; exact hn.1 (he ▸ List.mem_map_of_mem hp)
      have : (p.1 == q.1) = false := by simpa using hne
      simp [List.lookup, this, ih hn.2 hp]

theorem mem_of_lookup {α β : Type} [BEq α] [LawfulBEq α] {l : List (α × β)} {x : α} {y : β}
    (h : l.lookup x = some y) : (x, y) ∈ l := by
  induction l with
  | nil => simp at h
  | cons q l ih =>
    rcases q with ⟨a, b⟩
    by_cases hx : x = a
    · subst hx; simp [List.lookup] at h; simp [h]
    · have : (x == a) = false := by simpa using hx
      simp [List.lookup, this] at h
      exact List.mem_cons_of_mem _ (ih h)

/-! ### the update loop -/

theorem Net.put_same (n : Net) (k : Kind) (r : Name) (v : Val) : n.put k r v k r = some v := by simp [Net.put]
theorem Net.put_other (n : Net) (k k' : Kind) (r r' : Name) (v : Val) (h : ¬(k' = k ∧ r' = r)) :
    n.put k r v k' r' = n k' r' := by simp [Net.put, h]

theorem Net.set_eq (n : Net) (k : Kind) (r : Name) (v : Val)
    (h : k = .component → (n .component r).isSome) : n.set k r v = some (n.put k r v) := by
  cases k
  · simp [Net.set, h rfl]
  · simp [Net.set]

/-- The gathered data is described by the entry list `es`. -/
structure Faithful (g : Gath) (es : List (Name × Elem)) : Prop where
  els : g.els = es.map Prod.fst
  nodup : (es.map Prod.fst).Nodup
  dict : ∀ p ∈ es, g.dict.lookup p.1 = some p.2

theorem faithful_entries (es : List (Name × Elem)) (hn : (es.map Prod.fst).Nodup) :
    Faithful ⟨es.map Prod.fst, es.reverse⟩ es where
  els := rfl
  nodup := hn
  dict := fun p hp => lookup_of_mem (by rw [List.map_reverse]; exact List.nodup_reverse.mpr hn)
    (List.mem_reverse.mpr hp)

theorem testBit_half (b j : ℕ) : (b / 2).testBit j = b.testBit (j + 1) := by
  rw [Nat.testBit_succ]

theorem updateBitsF_spec (nv : Elem → Bool → Option Val) (g : Gath) (es : List (Name × Elem))
    (hF : Faithful g es) (hv : ∀ p ∈ es, ∀ b, (nv p.2 b).isSome) (s : ℕ)
    (fuel bits idx : ℕ) (n : Net) (hfuel : bits ≤ fuel)
    (hc : ∀ p ∈ es, p.2.kind = .component → (n .component p.1).isSome)
    (hb : ∀ j, bits.testBit j = true → idx + j < es.length) :
    ∃ n', updateBitsF nv g s fuel bits idx n = some n' ∧
      (∀ (j : ℕ) (h : j < es.length), idx ≤ j → bits.testBit (j - idx) = true →
        n' es[j].2.kind es[j].1 = nv es[j].2 (s.testBit j)) ∧
      (∀ (k : Kind) (r : Name), (∀ (j : ℕ) (h : j < es.length), idx ≤ j → bits.testBit (j - idx) = true →
        ¬(k = es[j].2.kind ∧ r = es[j].1)) → n' k r = n k r) ∧
      (∀ r, (n .component r).isSome → (n' .component r).isSome) := by
  induction fuel generalizing bits idx n with
  | zero =>
    have : bits = 0 := by omega
    subst this; simp [updateBitsF]
  | succ fuel ih =>
  rw [updateBitsF]
  by_cases h0 : bits = 0
  · subst h0; simp
  · simp only [h0, if_false, Option.bind_eq_bind]
    have hlt : bits / 2 ≤ fuel := by omega
    have hb' : ∀ j, (bits / 2).testBit j = true → idx + 1 + j < es.length := by
      intro j hj; rw [testBit_half] at hj; have := hb _ hj; omega
    by_cases h1 : bits % 2 = 1
    · have hbit0 : bits.testBit 0 = true := by simp [Nat.testBit_zero, h1]
      have hidx : idx < es.length := by simpa using hb 0 hbit0
      have hmem : es[idx] ∈ es := List.getElem_mem hidx
      obtain ⟨v, hv'⟩ := Option.isSome_iff_exists.mp (hv es[idx] hmem (s.testBit idx))
      have hset : setElem nv g s idx n = some (n.put es[idx].2.kind es[idx].1 v) := by
        unfold setElem
        have : g.els[idx]? = some es[idx].1 := by rw [hF.els]; simp [hidx]
        simp only [this, Option.bind_eq_bind, Option.bind_some, hF.dict _ hmem, hv']
        exact Net.set_eq _ _ _ _ (hc _ hmem)
      simp only [h1, if_true, hset, Option.bind_some]
      have hmono : ∀ r, (n .component r).isSome → ((n.put es[idx].2.kind es[idx].1 v) .component r).isSome := by
        intro r hr
        unfold Net.put
        split <;> simp_all
      obtain ⟨n', hn', hA, hB, hC⟩ := ih (bits / 2) (idx + 1) (n.put es[idx].2.kind es[idx].1 v) hlt
        (fun p hp hk => hmono _ (hc p hp hk)) hb'
      refine ⟨n', hn', ?_, ?_, fun r hr => hC r (hmono r hr)⟩
      · intro j hj hle hbj
        rcases Nat.lt_or_eq_of_le hle with hlt' | rfl
        · refine hA j hj (by omega) ?_
          rw [testBit_half]; rw [show j - (idx + 1) + 1 = j - idx by omega]; exact hbj
        · rw [hB, Net.put_same, hv']
          intro j' hj' hle' _ hcon
          have : (es.map Prod.fst)[idx]'(by simpa using hj) = (es.map Prod.fst)[j']'(by simpa using hj') := by
            simpa using hcon.2
          have := (List.Nodup.getElem_inj_iff hF.nodup).mp this
          omega
      · intro k r hno
        rw [hB, Net.put_other]
        · exact hno idx hidx (le_refl _) (by simpa using hbit0)
        · intro j hj hle hbj
          refine hno j hj (by omega) ?_
          rw [testBit_half] at hbj; rw [show j - idx = j - (idx + 1) + 1 by omega]; exact hbj
    · simp only [h1, if_false, Option.bind_some]
      obtain ⟨n', hn', hA, hB, hC⟩ := ih (bits / 2) (idx + 1) n hlt hc hb'
      refine ⟨n', hn', ?_, ?_, hC⟩
      · intro j hj hle hbj
        rcases Nat.lt_or_eq_of_le hle with hlt' | rfl
        · refine hA j hj (by omega) ?_
          rw [testBit_half]; rw [show j - (idx + 1) + 1 = j - idx by omega]; exact hbj
        · simp [Nat.testBit_zero, h1] at hbj
      · intro k r hno
        apply hB
        intro j hj hle hbj
        refine hno j hj (by omega) ?_
        rw [testBit_half] at hbj; rw [show j - idx = j - (idx + 1) + 1 by omega]; exact hbj

/-- The netlist of run `r` with setting `s`: element `j` at its value for bit `j` of `s`, the parameter `run`
equal to `r` and everything else as in `base`. -/
structure RunNet (nv : Elem → Bool → Option Val) (es : List (Name × Elem)) (base : Net) (s : ℕ) (r : ℤ) (n : Net) :
    Prop where
  elem : ∀ (j : ℕ) (h : j < es.length), n es[j].2.kind es[j].1 = nv es[j].2 (s.testBit j)
  run : n .parameter runName = some (.num (r : ℚ))
  frame : ∀ (k : Kind) (x : Name), (∀ p ∈ es, ¬(k = p.2.kind ∧ x = p.1)) → ¬(k = .parameter ∧ x = runName) →
    n k x = base k x

theorem turn_spec (nv : Elem → Bool → Option Val) (setting : ℕ → ℕ) (g : Gath) (es : List (Name × Elem))
    (hF : Faithful g es) (hv : ∀ p ∈ es, ∀ b, (nv p.2 b).isSome)
    (hrun : ∀ p ∈ es, ¬(p.2.kind = .parameter ∧ p.1 = runName))
    (base : Net) (a : St) (last r : ℕ)
    (hs : setting r < 2 ^ es.length) (hl : last < 2 ^ es.length)
    (hc : ∀ p ∈ es, p.2.kind = .component → (a.net .component p.1).isSome)
    (hpre : ∀ (j : ℕ) (h : j < es.length), (setting r).testBit j ≠ last.testBit j ∨
      a.net es[j].2.kind es[j].1 = nv es[j].2 (last.testBit j))
    (hframe : ∀ (k : Kind) (x : Name), (∀ p ∈ es, ¬(k = p.2.kind ∧ x = p.1)) → ¬(k = .parameter ∧ x = runName) →
      a.net k x = base k x) :
    ∃ n, turn nv setting g (a, last) r = some ({ a with net := n, launched := a.launched ++ [n] }, setting r) ∧
      RunNet nv es base (setting r) r n ∧
      (∀ p ∈ es, p.2.kind = .component → (n .component p.1).isSome) := by
  have hx : setting r ^^^ last < 2 ^ es.length := Nat.xor_lt_two_pow hs hl
  obtain ⟨n', hn', hA, hB, hC⟩ := updateBitsF_spec nv g es hF hv (setting r) (setting r ^^^ last) (setting r ^^^ last) 0 a.net (le_refl _) hc (by
    intro j hj
    rw [Nat.zero_add]
    by_contra hge
    have : (setting r ^^^ last).testBit j = false :=
      Nat.testBit_lt_two_pow (lt_of_lt_of_le hx (Nat.pow_le_pow_right (by norm_num) (by omega)))
    rw [this] at hj; exact absurd hj (by decide))
  refine ⟨n'.put .parameter runName (.num r), ?_, ⟨?_, ?_, ?_⟩, ?_⟩
  · unfold turn
    simp only [updateBits, hn', Option.bind_eq_bind, Option.bind_some, Net.set, St.launch]
  · intro j hj
    rw [Net.put_other _ _ _ _ _ _ (hrun _ (List.getElem_mem hj))]
    by_cases hbj : (setting r).testBit j = last.testBit j
    · rw [hB]
      · rw [((hpre j hj).resolve_left (by simp [hbj])), hbj]
      · intro j' hj' _ hb' hcon
        have : (es.map Prod.fst)[j]'(by simpa using hj) = (es.map Prod.fst)[j']'(by simpa using hj') := by
          simpa using hcon.2
        have := (List.Nodup.getElem_inj_iff hF.nodup).mp this
        subst this
        simp [Nat.testBit_xor, hbj] at hb'
    · exact hA j hj (Nat.zero_le _) (by
        simp only [Nat.sub_zero, Nat.testBit_xor]
        cases h1 : (setting r).testBit j <;> cases h2 : last.testBit j <;> simp_all)
  · rw [Net.put_same]; simp
  · intro k x h1 h2
    rw [Net.put_other _ _ _ _ _ _ h2, hB]
    · exact hframe k x h1 h2
    · intro j hj _ _ hcon
      exact h1 _ (List.getElem_mem hj) hcon
  · intro p hp hk
    rw [Net.put_other _ _ _ _ _ _ (by simp)]
    exact hC _ (hc p hp hk)

/-- The whole `for run in range(m)` loop. -/
theorem loop_spec (nv : Elem → Bool → Option Val) (setting : ℕ → ℕ) (g : Gath) (es : List (Name × Elem))
    (hF : Faithful g es) (hv : ∀ p ∈ es, ∀ b, (nv p.2 b).isSome)
    (hrun : ∀ p ∈ es, ¬(p.2.kind = .parameter ∧ p.1 = runName))
    (base : Net) (a : St) (last : ℕ)
    (hl : last < 2 ^ es.length)
    (hc : ∀ p ∈ es, p.2.kind = .component → (a.net .component p.1).isSome)
    (hframe : ∀ (k : Kind) (x : Name), (∀ p ∈ es, ¬(k = p.2.kind ∧ x = p.1)) → ¬(k = .parameter ∧ x = runName) →
      a.net k x = base k x)
    (hpre : ∀ (j : ℕ) (h : j < es.length), (setting 0).testBit j ≠ last.testBit j ∨
      a.net es[j].2.kind es[j].1 = nv es[j].2 (last.testBit j))
    (m : ℕ) (hs : ∀ r < m, setting r < 2 ^ es.length) :
    ∃ (a' : St) (last' : ℕ) (nets : List Net),
      (List.range m).foldlM (turn nv setting g) (a, last) = some (a', last') ∧
      a'.launched = a.launched ++ nets ∧ nets.length = m ∧
      (∀ (r : ℕ) (h : r < nets.length), RunNet nv es base (setting r) (r : ℤ) nets[r]) ∧
      (0 < m → last' = setting (m - 1) ∧ RunNet nv es base (setting (m - 1)) ((m - 1 : ℕ) : ℤ) a'.net) ∧
      (m = 0 → a' = a ∧ last' = last) ∧
      (∀ p ∈ es, p.2.kind = .component → (a'.net .component p.1).isSome) := by
  induction m with
  | zero => exact ⟨a, last, [], by simp, by simp, rfl, by simp, by simp, by simp, hc⟩
  | succ m ih =>
    obtain ⟨a1, l1, nets, h1, h2, h3, h4, h5, h6, h7⟩ := ih (fun r hr => hs r (by omega))
    have hl1 : l1 < 2 ^ es.length := by
      rcases Nat.eq_zero_or_pos m with hm | hm
      · rw [(h6 hm).2]; exact hl
      · rw [(h5 hm).1]; exact hs _ (by omega)
    obtain ⟨n, hn, hR, hcn⟩ := turn_spec nv setting g es hF hv hrun base a1 l1 m (hs m (by omega)) hl1 h7
      (by
        intro j hj
        rcases Nat.eq_zero_or_pos m with hm | hm
        · obtain ⟨rfl, rfl⟩ := h6 hm
          subst hm; exact hpre j hj
        · right; rw [(h5 hm).1]; exact (h5 hm).2.elem j hj)
      (by
        intro k x hk hx
        rcases Nat.eq_zero_or_pos m with hm | hm
        · rw [(h6 hm).1]; exact hframe k x hk hx
        · exact (h5 hm).2.frame k x hk hx)
    refine ⟨{ a1 with net := n, launched := a1.launched ++ [n] }, setting m, nets ++ [n], ?_, ?_, by simp [h3], ?_, ?_, by simp, hcn⟩
    · rw [List.range_succ, List.foldlM_append, h1]
      simp only [Option.bind_eq_bind, Option.bind_some, List.foldlM_cons, List.foldlM_nil, hn]
      rfl
    · simp [h2]
    · intro r hr
      rcases Nat.lt_or_ge r nets.length with hlt | hge
      · rw [List.getElem_append_left hlt]; exact h4 r hlt
      · have : r = m := by simp at hr; omega
        subst this
        rw [List.getElem_append_right hge]; simpa using hR
    · intro _; exact ⟨by simp, by simpa using hR⟩

end Lemmas.Analysis
