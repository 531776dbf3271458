import Verif.Lemmas.Hier3
namespace Lemmas.Hier
open Model.PyStr Model.Hier Spec.Hier
open Model.Netlist (Str)

/-- The instances that have copies: reference, cell, name of the copy, modified. -/
def copies : Net → List Step
  | .nil => []
  | .text r => copies r
  | .bad r => copies r
  | .comp _ _ r => copies r
  | .inst _ _ r => copies r
  | .opened ref a nm b m r => ⟨ref, a, nm, m⟩ :: (copies b ++ copies r)
  | .circ _ _ r => copies r

/-- A copy is named after the sub-circuit and the instance; once it was modified the instance has the name of the copy. -/
def Named (v : Nat → Str) (c : Step) : Prop := if c.modified then v c.a = c.name else c.name = v c.a ++ '_' :: c.ref

theorem copies_addrs : ∀ (n : Net), ∀ c ∈ copies n, c.a ∈ addrs n := by
  intro n
  induction n with
  | nil => intro c h; simp [copies] at h
  | text r ih => exact ih
  | bad r ih => exact ih
  | comp _ _ r ih => intro c h; simp [addrs, ih c h]
  | inst _ _ r ih => intro c h; simp [addrs, ih c h]
  | opened ref a nm b m r ihb ih =>
    intro c h
    simp only [copies, List.mem_cons, List.mem_append] at h
    rcases h with rfl | h | h
    · simp [addrs]
    · simp [addrs, ihb c h]
    · simp [addrs, ih c h]
  | circ _ b r _ ih => intro c h; simp [addrs, ih c h]

theorem pure_copies : ∀ (n : Net), Pure n → copies n = [] := by
  intro n
  induction n with
  | nil => intro _; rfl
  | text r ih => exact ih
  | bad r ih => exact ih
  | comp _ _ r ih => exact ih
  | inst _ _ r ih => exact ih
  | opened => intro h; exact h.elim
  | circ _ b r _ ih => intro h; exact ih h.2

/-- The copies after a look-up: named correctly, those on the way are marked. -/
structure NGood (mark : Bool) (v' : Nat → Str) (f : Found) : Prop where
  off : ∀ c ∈ copies f.net, c.a ∉ f.via.map Step.a → Named v' c
  on : ∀ c ∈ copies f.net, c.a ∈ f.via.map Step.a → ∃ x ∈ f.via, x.a = c.a ∧ x.ref = c.ref ∧ x.name = c.name ∧ c.modified = (x.modified || mark)
  via : ∀ x ∈ f.via, Named v' x

theorem named_congr {v v' : Nat → Str} {c : Step} (h : v c.a = v' c.a) (hn : Named v c) : Named v' c := by
  unfold Named at *; rw [← h]; exact hn

theorem walk_named (numeric : Str → Bool) (mark : Bool) (up : Str) (down : Option (List Net → Net → Store → Except LErr Found))
    (sc : List Net)
    (hd : down = none ∨ ∃ k p, down = some k ∧ ∀ b s f, ScopeOK sc s.fresh → Static b → (∀ a ∈ addrs b, a < s.fresh) →
      (addrs b).Nodup → (∀ c ∈ copies b, Named s.vals c) → k sc b s = .ok f → Good numeric p sc b s f ∧ NGood mark f.store.vals f) :
    ∀ (n : Net) (s : Store) (f : Found), ScopeOK sc s.fresh → Static n → (∀ a ∈ addrs n, a < s.fresh) → (addrs n).Nodup → (∀ c ∈ copies n, Named s.vals c) →
      walk numeric mark up down sc n s = .ok f → (∀ x ∈ f.via, x.a ∈ addrs f.net) ∧ (∀ a ∈ addrs f.net, a ∈ addrs n ∨ s.fresh ≤ a) ∧
        (∀ a, a < s.fresh → f.store.vals a = s.vals a) ∧ NGood mark f.store.vals f := by
  intro n
  induction n with
  | nil => intro s f _ _ _ _ _ h; simp [walk] at h
  | bad r ih => intro s f _ _ _ _ _ h; simp [walk] at h
  | text r ih =>
    intro s f hsc hS hlt hnd hN h
    unfold walk at h
    cases hw : walk numeric mark up down sc r s with
    | error e => rw [hw] at h; cases h
    | ok g =>
      rw [hw] at h
      cases h
      obtain ⟨g0, g1, g2, g3⟩ := ih s g hsc hS hlt hnd hN hw
      exact ⟨g0, g1, g2, ⟨g3.off, g3.on, g3.via⟩⟩
  | comp ref a r ih =>
    intro s f hsc hS hlt hnd hN h
    unfold walk at h
    by_cases hm : sameRef ref up = true
    · rw [if_pos hm] at h
      rcases hd with rfl | ⟨k, p, rfl, _⟩
      · cases h
        exact ⟨by simp, fun a h => Or.inl h, fun _ _ => rfl, ⟨fun c hc _ => hN c hc, by simp, by simp⟩⟩
      · cases h
    · rw [if_neg hm] at h
      cases hw : walk numeric mark up down sc r s with
      | error e => rw [hw] at h; cases h
      | ok g =>
        rw [hw] at h
        cases h
        obtain ⟨g0, g1, g2, g3⟩ := ih s g hsc hS (fun x hx => hlt x (by simp [addrs, hx])) (List.nodup_cons.1 hnd).2 hN hw
        refine ⟨fun x hx => by simp [addrs, g0 x hx], ?_, g2, ⟨g3.off, g3.on, g3.via⟩⟩
        intro x hx
        rcases List.mem_cons.1 hx with rfl | hx
        · left; simp [addrs]
        · rcases g1 x hx with h | h
          · left; simp [addrs, h]
          · right; exact h
  | inst ref a r ih =>
    intro s f hsc hS hlt hnd hN h
    have ha := hlt a (by simp [addrs])
    have hlt2 : ∀ x ∈ addrs r, x < s.fresh := fun x hx => hlt x (by simp [addrs, hx])
    have hnd2 := List.nodup_cons.1 hnd
    unfold walk at h
    by_cases hm : sameRef ref up = true
    · rw [if_pos hm] at h
      rcases hd with rfl | ⟨k, p, rfl, hk⟩
      · cases h
        exact ⟨by simp, fun a h => Or.inl h, fun _ _ => rfl, ⟨fun c hc _ => hN c hc, by simp, by simp⟩⟩
      · simp only at h
        cases hdef : definition numeric sc (s.vals a) with
        | none => rw [hdef] at h; cases h
        | some b =>
          rw [hdef] at h
          simp only [clone] at h
          obtain ⟨hpb, hlb⟩ := definition_ok numeric hsc _ b hdef
          cases hc : cloneBody b s with
          | mk b' t =>
            rw [hc] at h
            simp only at h
            obtain ⟨c1, c2, c3, c4, c5, c6⟩ := clone_spec b s t b' hpb hlb hc
            cases hk1 : k sc (.text b') t with
            | error e => rw [hk1] at h; cases h
            | ok g =>
              rw [hk1] at h
              cases h
              obtain ⟨G, N⟩ := hk (.text b') t g (hsc.mono c2) (Pure.static b' c6) (fun x hx => (c4 x hx).2) c5
                (by intro c hc; rw [show copies (Net.text b') = copies b' from rfl, pure_copies b' c6] at hc; simp at hc) hk1
              have hvals : ∀ x, x < s.fresh → g.store.vals x = s.vals x := fun x hx => by
                rw [G.vals x (by omega), c3 x hx]
              have hgb : ∀ x ∈ addrs g.net, s.fresh ≤ x := by
                intro x hx
                rcases G.addr x hx with h | h
                · exact (c4 x h).1
                · omega
              have hvia : ∀ x ∈ g.via, x.a ∈ addrs g.net := by
                intro x hx
                refine (route_sub _ _ _ G.route).subset ?_
                exact List.mem_append.2 (Or.inl (List.mem_map.2 ⟨x, hx, rfl⟩))
              refine ⟨?_, ?_, hvals, ⟨?_, ?_, ?_⟩⟩
              · intro x hx
                rcases List.mem_cons.1 hx with rfl | hx
                · simp [addrs]
                · simp [addrs, hvia x hx]
              · intro x hx
                simp only [addrs, List.mem_cons, List.mem_append] at hx
                rcases hx with rfl | hx | hx
                · left; simp [addrs]
                · right; exact hgb x hx
                · left; simp [addrs, hx]
              · intro c hc hn
                simp only [copies, List.mem_cons, List.mem_append] at hc
                simp only [List.map_cons, List.mem_cons, not_or] at hn
                rcases hc with rfl | hc | hc
                · exact (hn.1 rfl).elim
                · exact N.off c hc hn.2
                · exact named_congr (hvals c.a (hlt2 _ (copies_addrs r c hc))).symm (hN c hc)
              · intro c hc hn
                simp only [copies, List.mem_cons, List.mem_append] at hc
                simp only [List.map_cons, List.mem_cons] at hn
                rcases hc with rfl | hc | hc
                · exact ⟨_, List.mem_cons_self, rfl, rfl, rfl, by simp⟩
                · rcases hn with hn | hn
                  · have := hgb _ (copies_addrs g.net c hc); omega
                  · obtain ⟨x, hx, h1⟩ := N.on c hc hn
                    exact ⟨x, List.mem_cons_of_mem _ hx, h1⟩
                · have hcr := copies_addrs r c hc
                  rcases hn with hn | hn
                  · exact (hnd2.1 (hn ▸ hcr)).elim
                  · obtain ⟨x, hx, hxa⟩ := List.mem_map.1 hn
                    have := hgb _ (hvia x hx)
                    have := hlt2 _ hcr
                    omega
              · intro x hx
                rcases List.mem_cons.1 hx with rfl | hx
                · simp [Named, hvals a ha]
                · exact N.via x hx
    · rw [if_neg hm] at h
      cases hw : walk numeric mark up down sc r s with
      | error e => rw [hw] at h; cases h
      | ok g =>
        rw [hw] at h
        cases h
        obtain ⟨g0, g1, g2, g3⟩ := ih s g hsc hS hlt2 hnd2.2 hN hw
        refine ⟨fun x hx => by simp [addrs, g0 x hx], ?_, g2, ⟨g3.off, g3.on, g3.via⟩⟩
        intro x hx
        rcases List.mem_cons.1 hx with rfl | hx
        · left; simp [addrs]
        · rcases g1 x hx with h | h
          · left; simp [addrs, h]
          · right; exact h
  | opened ref a nm bo m r _ ih =>
    intro s f hsc hS hlt hnd hN h
    have ha := hlt a (by simp [addrs])
    have hlt2 : ∀ x ∈ addrs r, x < s.fresh := fun x hx => hlt x (by simp [addrs, hx])
    have hltb : ∀ x ∈ addrs bo, x < s.fresh := fun x hx => hlt x (by simp [addrs, hx])
    have hnd2 := List.nodup_cons.1 hnd
    have hnd3 := List.nodup_append.1 hnd2.2
    have haB : a ∉ addrs bo := fun hx => hnd2.1 (List.mem_append.2 (Or.inl hx))
    have haR : a ∉ addrs r := fun hx => hnd2.1 (List.mem_append.2 (Or.inr hx))
    have hN0 : Named s.vals ⟨ref, a, nm, m⟩ := hN _ (by simp [copies])
    have hNb : ∀ c ∈ copies bo, Named s.vals c := fun c hc => hN c (by simp [copies, hc])
    have hNr : ∀ c ∈ copies r, Named s.vals c := fun c hc => hN c (by simp [copies, hc])
    unfold walk at h
    by_cases hm : sameRef ref up = true
    · rw [if_pos hm] at h
      rcases hd with rfl | ⟨k, p, rfl, hk⟩
      · cases h
        exact ⟨by simp, fun a h => Or.inl h, fun _ _ => rfl, ⟨fun c hc _ => hN c hc, by simp, by simp⟩⟩
      · simp only at h
        cases hk1 : k sc bo s with
        | error e => rw [hk1] at h; cases h
        | ok g =>
          rw [hk1] at h
          cases h
          obtain ⟨G, N⟩ := hk bo s g hsc hS.1 hltb hnd3.1 hNb hk1
          have hvals := G.vals
          have hvia : ∀ x ∈ g.via, x.a ∈ addrs g.net := by
            intro x hx
            refine (route_sub _ _ _ G.route).subset ?_
            exact List.mem_append.2 (Or.inl (List.mem_map.2 ⟨x, hx, rfl⟩))
          refine ⟨?_, ?_, hvals, ⟨?_, ?_, ?_⟩⟩
          · intro x hx
            rcases List.mem_cons.1 hx with rfl | hx
            · simp [addrs]
            · simp [addrs, hvia x hx]
          · intro x hx
            simp only [addrs, List.mem_cons, List.mem_append] at hx
            rcases hx with rfl | hx | hx
            · left; simp [addrs]
            · rcases G.addr x hx with h | h
              · left; simp [addrs, h]
              · right; exact h
            · left; simp [addrs, hx]
          · intro c hc hn
            simp only [copies, List.mem_cons, List.mem_append] at hc
            simp only [List.map_cons, List.mem_cons, not_or] at hn
            rcases hc with rfl | hc | hc
            · exact (hn.1 rfl).elim
            · exact N.off c hc hn.2
            · exact named_congr (hvals c.a (hlt2 _ (copies_addrs r c hc))).symm (hNr c hc)
          · intro c hc hn
            simp only [copies, List.mem_cons, List.mem_append] at hc
            simp only [List.map_cons, List.mem_cons] at hn
            rcases hc with rfl | hc | hc
            · exact ⟨_, List.mem_cons_self, rfl, rfl, rfl, rfl⟩
            · rcases hn with hn | hn
              · have hc2 := copies_addrs g.net c hc
                rw [hn] at hc2
                rcases G.addr a hc2 with h | h
                · exact (haB h).elim
                · omega
              · obtain ⟨x, hx, h1⟩ := N.on c hc hn
                exact ⟨x, List.mem_cons_of_mem _ hx, h1⟩
            · have hcr := copies_addrs r c hc
              rcases hn with hn | hn
              · exact (haR (hn ▸ hcr)).elim
              · obtain ⟨x, hx, hxa⟩ := List.mem_map.1 hn
                rcases G.addr _ (hvia x hx) with h | h
                · exact (hnd3.2.2 _ h _ hcr hxa).elim
                · have := hlt2 _ hcr; omega
          · intro x hx
            rcases List.mem_cons.1 hx with rfl | hx
            · exact named_congr (hvals a ha).symm hN0
            · exact N.via x hx
    · rw [if_neg hm] at h
      cases hw : walk numeric mark up down sc r s with
      | error e => rw [hw] at h; cases h
      | ok g =>
        rw [hw] at h
        cases h
        obtain ⟨g0, g1, g2, g3⟩ := ih s g hsc hS.2 hlt2 hnd3.2.1 hNr hw
        have hoff : ∀ y ∈ addrs bo, y ∉ g.via.map Step.a := by
          intro y hy hn
          obtain ⟨x, hx, hxa⟩ := List.mem_map.1 hn
          rcases g1 _ (g0 x hx) with h | h
          · exact hnd3.2.2 _ hy _ h hxa.symm
          · have := hltb y hy; omega
        have hoffa : a ∉ g.via.map Step.a := by
          intro hn
          obtain ⟨x, hx, hxa⟩ := List.mem_map.1 hn
          rcases g1 _ (g0 x hx) with h | h
          · exact haR (hxa ▸ h)
          · omega
        refine ⟨fun x hx => by simp [addrs, g0 x hx], ?_, g2, ⟨?_, ?_, g3.via⟩⟩
        · intro x hx
          simp only [addrs, List.mem_cons, List.mem_append] at hx
          rcases hx with rfl | hx | hx
          · left; simp [addrs]
          · left; simp [addrs, hx]
          · rcases g1 x hx with h | h
            · left; simp [addrs, h]
            · right; exact h
        · intro c hc hn
          simp only [copies, List.mem_cons, List.mem_append] at hc
          rcases hc with rfl | hc | hc
          · exact named_congr (g2 a ha).symm hN0
          · exact named_congr (g2 c.a (hltb _ (copies_addrs bo c hc))).symm (hNb c hc)
          · exact g3.off c hc hn
        · intro c hc hn
          simp only [copies, List.mem_cons, List.mem_append] at hc
          rcases hc with rfl | hc | hc
          · exact (hoffa hn).elim
          · exact (hoff _ (copies_addrs bo c hc) hn).elim
          · exact g3.on c hc hn
  | circ nm bo r _ ih =>
    intro s f hsc hS hlt hnd hN h
    have hnd3 := List.nodup_append.1 hnd
    unfold walk at h
    by_cases hm : sameRef nm up = true
    · rw [if_pos hm] at h; cases h
    · rw [if_neg hm] at h
      cases hw : walk numeric mark up down sc r s with
      | error e => rw [hw] at h; cases h
      | ok g =>
        rw [hw] at h
        cases h
        obtain ⟨g0, g1, g2, g3⟩ := ih s g hsc hS.2 (fun x hx => hlt x (by simp [addrs, hx])) hnd3.2.1 hN hw
        refine ⟨fun x hx => by simp [addrs, g0 x hx], ?_, g2, ⟨g3.off, g3.on, g3.via⟩⟩
        intro x hx
        simp only [addrs, List.mem_append] at hx
        rcases hx with hx | hx
        · left; simp [addrs, hx]
        · rcases g1 x hx with h | h
          · left; simp [addrs, h]
          · right; exact h

theorem locate_named (numeric : Str → Bool) (mark : Bool) : ∀ (p : List Str) (sc : List Net) (n : Net) (s : Store) (f : Found), ScopeOK sc s.fresh → Static n →
    (∀ a ∈ addrs n, a < s.fresh) → (addrs n).Nodup → (∀ c ∈ copies n, Named s.vals c) → locate numeric mark p sc n s = .ok f → NGood mark f.store.vals f := by
  intro p
  induction p with
  | nil => intro sc n s f _ _ _ _ _ h; simp [locate] at h
  | cons r p ih =>
    intro sc n s f hsc hS hlt hnd hN h
    cases p with
    | nil => exact (walk_named numeric mark r none (n :: sc) (Or.inl rfl) n s f (hsc.cons hS hlt) hS hlt hnd hN h).2.2.2
    | cons r2 p =>
      unfold locate at h
      split_ifs at h
      exact (walk_named numeric mark r _ (n :: sc) (Or.inr ⟨_, r2 :: p, rfl, fun b s f h1 h2 h3 h4 h5 h6 =>
        ⟨locate_good numeric mark (r2 :: p) (n :: sc) b s f h1 h2 h3 h4 h6, ih (n :: sc) b s f h1 h2 h3 h4 h5 h6⟩⟩) n s f (hsc.cons hS hlt) hS hlt hnd hN h).2.2.2

/-! ### Renaming the instances on the way -/

theorem beginUpdate_spec : ∀ (xs pre : List Step) (s : Store) (calls : List (Str × Str × Model.Updates.UpdateType)), (xs.map Step.a).Nodup →
    (beginUpdate pre xs s calls).1.fresh = s.fresh ∧
    (∀ a, a ∉ xs.map Step.a → (beginUpdate pre xs s calls).1.vals a = s.vals a) ∧
    (∀ x ∈ xs, (beginUpdate pre xs s calls).1.vals x.a = if x.modified then s.vals x.a else x.name) := by
  intro xs
  induction xs with
  | nil => intro pre s calls _; exact ⟨rfl, fun _ _ => rfl, by simp⟩
  | cons x xs ih =>
    intro pre s calls hnd
    simp only [List.map_cons, List.nodup_cons] at hnd
    unfold beginUpdate
    by_cases hm : x.modified = true
    · rw [if_pos hm]
      obtain ⟨h1, h2, h3⟩ := ih (pre ++ [x]) s calls hnd.2
      refine ⟨h1, fun a ha => h2 a (fun h => ha (by simp only [List.map_cons, List.mem_cons]; exact Or.inr h)), ?_⟩
      intro y hy
      rcases List.mem_cons.1 hy with rfl | hy
      · rw [h2 _ hnd.1, if_pos hm]
      · exact h3 y hy
    · rw [if_neg hm]
      simp only
      obtain ⟨h1, h2, h3⟩ := ih (pre ++ [x]) (s.set x.a x.name)
        (calls ++ [(fullRef pre ("CLONE(".toList ++ s.vals x.a ++ [')']), s.vals x.a, .cloneSubcircuit), (fullRef pre x.ref, x.name, .updateComponentValue)]) hnd.2
      refine ⟨h1, ?_, ?_⟩
      · intro a ha
        simp only [List.map_cons, List.mem_cons, not_or] at ha
        rw [h2 a ha.2]; simp [Store.set, ha.1]
      · intro y hy
        rcases List.mem_cons.1 hy with rfl | hy
        · rw [h2 _ hnd.1, if_neg hm]; simp [Store.set]
        · rw [h3 y hy]
          have hne : y.a ≠ x.a := fun e => hnd.1 (e ▸ List.mem_map.2 ⟨y, hy, rfl⟩)
          simp [Store.set, hne]

theorem copies_drop (p : List Str) (n : Net) : ∀ c ∈ copies (dropAt p n), c ∈ copies n := by
  have hW : ∀ (up : Str) (dn : Option (Net → Net)), (∀ k, dn = some k → ∀ b, ∀ c ∈ copies (k b), c ∈ copies b) → ∀ n : Net, ∀ c ∈ copies (dropShadow up dn n), c ∈ copies n := by
    intro up dn hd n
    induction n with
    | nil => intro c h; exact h
    | text r ih => exact ih
    | bad r ih => intro c h; exact h
    | comp ref a r ih => intro c h; unfold dropShadow at h; split_ifs at h <;> [exact h; exact ih c h]
    | inst ref a r ih => intro c h; unfold dropShadow at h; split_ifs at h <;> [exact h; exact ih c h]
    | opened ref a nm b m r _ ih =>
      intro c h
      unfold dropShadow at h
      split_ifs at h
      · cases dn with
        | none => simp only [copies] at h ⊢; simp [h]
        | some k =>
          simp only [copies, List.mem_cons, List.mem_append] at h ⊢
          rcases h with h | h | h
          · simp [h]
          · right; left; exact hd k rfl b c h
          · simp [h]
      · simp only [copies, List.mem_cons, List.mem_append] at h ⊢
        rcases h with h | h | h
        · simp [h]
        · simp [h]
        · right; right; exact ih c h
    | circ nm b r _ ih => intro c h; unfold dropShadow at h; split_ifs at h <;> [exact h; exact ih c h]
  induction p generalizing n with
  | nil => intro c h; exact h
  | cons r p ih =>
    cases p with
    | nil => exact hW r none (by simp) n
    | cons r2 p => exact hW r _ (by intro k hk; cases hk; exact ih) n

end Lemmas.Hier
