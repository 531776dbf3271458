import Verif.Lemmas.Hier
namespace Lemmas.Hier
open Model.PyStr Model.Hier Spec.Hier
open Model.Netlist (Str)

theorem sim_left (v v1 w : Nat → Str) {n n' : Net} (h : Sim v w n n') (ha : ∀ a ∈ addrs n, v a = v1 a) : Sim v1 w n n' := by
  induction h with
  | nil => exact .nil
  | textL _ ih => exact .textL (ih ha)
  | textR _ ih => exact .textR (ih ha)
  | bad _ ih => exact .bad (ih ha)
  | comp e _ ih => exact .comp (by rw [← e, ha _ (by simp [addrs])]) (ih (fun x hx => ha x (by simp [addrs, hx])))
  | inst e _ ih => exact .inst (by rw [← e, ha _ (by simp [addrs])]) (ih (fun x hx => ha x (by simp [addrs, hx])))
  | opened e _ _ ih1 ih2 =>
    exact .opened (by rw [← e, ha _ (by simp [addrs])]) (ih1 (fun x hx => ha x (by simp [addrs, hx]))) (ih2 (fun x hx => ha x (by simp [addrs, hx])))
  | circ _ _ ih1 ih2 => exact .circ (ih1 (fun x hx => ha x (by simp [addrs, hx]))) (ih2 (fun x hx => ha x (by simp [addrs, hx])))

/-- The definitions in a scope have no copies inside and lie below `m`. -/
def ScopeOK (sc : List Net) (m : Nat) : Prop := ∀ c ∈ sc, ∀ name b, findCirc name c = some b → Pure b ∧ ∀ a ∈ addrs b, a < m

theorem ScopeOK.mono {sc : List Net} {m m' : Nat} (h : ScopeOK sc m) (hm : m ≤ m') : ScopeOK sc m' :=
  fun c hc name b hb => ⟨(h c hc name b hb).1, fun a ha => Nat.lt_of_lt_of_le ((h c hc name b hb).2 a ha) hm⟩

theorem static_find (name : Str) : ∀ n b : Net, Static n → findCirc name n = some b → Pure b := by
  intro n
  induction n with
  | nil => intro b _ h; simp [findCirc] at h
  | text r ih => exact ih
  | bad r ih => exact ih
  | comp _ _ r ih => exact ih
  | inst _ _ r ih => exact ih
  | opened _ _ _ _ _ r _ ih => intro b h; exact ih b h.2
  | circ nm b r _ ih =>
    intro b' h hf
    unfold findCirc at hf
    split_ifs at hf
    · cases hf; exact h.1
    · exact ih b' h.2 hf

theorem ScopeOK.cons {sc : List Net} {m : Nat} {n : Net} (h : ScopeOK sc m) (hs : Static n) (ha : ∀ a ∈ addrs n, a < m) : ScopeOK (n :: sc) m := by
  intro c hc name b hb
  rcases List.mem_cons.1 hc with rfl | hc
  · exact ⟨static_find name _ b hs hb, fun a h => ha a (find_addrs name _ b hb a h)⟩
  · exact h c hc name b hb

theorem ssim_left (v v1 w : Nat → Str) (m : Nat) {sc sc' : List Net} (h : SSim v w sc sc') (hok : ScopeOK sc m) (hv : ∀ a, a < m → v1 a = v a) : SSim v1 w sc sc' := by
  induction h with
  | nil => exact .nil
  | @cons c c' s s' hc _ ih =>
    refine .cons ?_ (ih (fun d hd => hok d (by simp [hd])))
    intro name
    have h0 := hc name
    have h3 := hok c (by simp) name
    cases h1 : findCirc name c <;> cases h2 : findCirc name c' <;> rw [h1, h2] at h0
    · trivial
    · exact h0.elim
    · exact h0.elim
    · exact sim_left _ _ _ h0 (fun a ha => (hv a ((h3 _ h1).2 a ha)).symm)

theorem ssim_refl (v w : Nat → Str) (m : Nat) {sc : List Net} (hok : ScopeOK sc m) (hv : ∀ a, a < m → v a = w a) : SSim v w sc sc := by
  induction sc with
  | nil => exact .nil
  | cons c s ih =>
    refine .cons ?_ (ih (fun d hd => hok d (by simp [hd])))
    intro name
    cases h1 : findCirc name c with
    | none => trivial
    | some b => exact sim_of_agree v w b (fun a ha => hv a ((hok c (by simp) name b h1).2 a ha))

theorem findNamed_ok {sc : List Net} {m : Nat} (h : ScopeOK sc m) (name : Str) (b : Net) (hb : findNamed name sc = some b) :
    Pure b ∧ ∀ a ∈ addrs b, a < m := by
  induction sc with
  | nil => simp [findNamed] at hb
  | cons c s ih =>
    unfold findNamed at hb
    cases h1 : findCirc name c with
    | none => rw [h1] at hb; exact ih (fun d hd => h d (by simp [hd])) hb
    | some b' => rw [h1] at hb; cases hb; exact h c (by simp) name _ h1

theorem definition_ok (numeric : Str → Bool) {sc : List Net} {m : Nat} (h : ScopeOK sc m) (x : Str) (b : Net) (hb : definition numeric sc x = some b) :
    Pure b ∧ ∀ a ∈ addrs b, a < m := by
  unfold definition at hb
  split_ifs at hb
  exact findNamed_ok h x b hb

/-- The cells of the elements on a path that goes through copies only. -/
def routeW (up : Str) (down : Option (Net → Option (List Nat))) : Net → Option (List Nat)
  | .nil => none
  | .text r => routeW up down r
  | .bad _ => none
  | .comp ref a r => if sameRef ref up then (match down with | none => some [a] | some _ => none) else routeW up down r
  | .inst ref a r => if sameRef ref up then (match down with | none => some [a] | some _ => none) else routeW up down r
  | .opened ref a _ b _ r =>
    if sameRef ref up then (match down with | none => some [a] | some k => (k b).map (a :: ·)) else routeW up down r
  | .circ name _ r => if sameRef name up then none else routeW up down r

def route : List Str → Net → Option (List Nat)
  | [] => fun _ => none
  | [r] => routeW r none
  | r :: p => fun n => if r.head? = some 'X' then routeW r (some (route p)) n else none

/-- What a successful look-up guarantees. -/
structure Good (numeric : Str → Bool) (p : List Str) (sc : List Net) (n : Net) (s : Store) (f : Found) : Prop where
  fresh : s.fresh ≤ f.store.fresh
  vals : ∀ a, a < s.fresh → f.store.vals a = s.vals a
  addr : ∀ a ∈ addrs f.net, a ∈ addrs n ∨ s.fresh ≤ a
  lt : ∀ a ∈ addrs f.net, a < f.store.fresh
  nodup : (addrs f.net).Nodup
  circs : ∀ name, findCirc name f.net = findCirc name n
  static : Static f.net
  route : route p f.net = some (f.via.map Step.a ++ [f.a])
  peek : ∀ q sc', SSim s.vals f.store.vals sc sc' → peek numeric f.store.vals q sc' f.net = peek numeric s.vals q sc n

/-- The same for one level. -/
structure WGood (numeric : Str → Bool) (up : Str) (dp : Option (Net → Option (List Nat))) (sc : List Net) (n : Net) (s : Store) (f : Found) : Prop where
  fresh : s.fresh ≤ f.store.fresh
  vals : ∀ a, a < s.fresh → f.store.vals a = s.vals a
  addr : ∀ a ∈ addrs f.net, a ∈ addrs n ∨ s.fresh ≤ a
  lt : ∀ a ∈ addrs f.net, a < f.store.fresh
  nodup : (addrs f.net).Nodup
  circs : ∀ name, findCirc name f.net = findCirc name n
  static : Static f.net
  route : routeW up dp f.net = some (f.via.map Step.a ++ [f.a])
  look0 : ∀ r' sc', SSim s.vals f.store.vals sc sc' → look numeric f.store.vals r' none sc' f.net = look numeric s.vals r' none sc n
  lookq : ∀ r' q sc', SSim s.vals f.store.vals sc sc' →
    look numeric f.store.vals r' (some (Spec.Hier.peek numeric f.store.vals q)) sc' f.net = look numeric s.vals r' (some (Spec.Hier.peek numeric s.vals q)) sc n

theorem WGood.here (numeric : Str → Bool) (up : Str) (sc : List Net) (n : Net) (s : Store) (a : Nat) (ref : Str) (i : Bool)
    (hS : Static n) (hlt : ∀ a ∈ addrs n, a < s.fresh) (hnd : (addrs n).Nodup) (hr : routeW up none n = some [a]) :
    WGood numeric up none sc n s ⟨n, s, a, ref, i, []⟩ where
  fresh := Nat.le_refl _
  vals := fun _ _ => rfl
  addr := fun a h => Or.inl h
  lt := hlt
  nodup := hnd
  circs := fun _ => rfl
  static := hS
  route := hr
  look0 := fun r' sc' h => (look_congr numeric s.vals s.vals r' none none (Or.inl ⟨rfl, rfl⟩) h (sim_of_agree _ _ n (fun _ _ => rfl))).symm
  lookq := fun r' q sc' h => (look_congr numeric s.vals s.vals r' _ _
    (Or.inr ⟨_, _, rfl, rfl, fun s s' b b' h1 h2 => peek_congr numeric _ _ q s s' b b' h1 h2⟩) h (sim_of_agree _ _ n (fun _ _ => rfl))).symm

theorem walk_good (numeric : Str → Bool) (mark : Bool) (up : Str) (down : Option (List Net → Net → Store → Except LErr Found))
    (dp : Option (Net → Option (List Nat))) (sc : List Net)
    (hd : (down = none ∧ dp = none) ∨ ∃ k p, down = some k ∧ dp = some (route p) ∧ ∀ b s f, ScopeOK sc s.fresh → Static b → (∀ a ∈ addrs b, a < s.fresh) →
      (addrs b).Nodup → k sc b s = .ok f → Good numeric p sc b s f) :
    ∀ (n : Net) (s : Store) (f : Found), ScopeOK sc s.fresh → Static n → (∀ a ∈ addrs n, a < s.fresh) → (addrs n).Nodup →
      walk numeric mark up down sc n s = .ok f → WGood numeric up dp sc n s f := by
  intro n
  induction n with
  | nil => intro s f _ _ _ _ h; simp [walk] at h
  | bad r ih => intro s f _ _ _ _ h; simp [walk] at h
  | text r ih =>
    intro s f hsc hS hlt hnd h
    unfold walk at h
    cases hw : walk numeric mark up down sc r s with
    | error e => rw [hw] at h; cases h
    | ok g =>
      rw [hw] at h
      cases h
      have g1 := ih s g hsc hS hlt hnd hw
      exact ⟨g1.fresh, g1.vals, g1.addr, g1.lt, g1.nodup, g1.circs, g1.static, g1.route, g1.look0, g1.lookq⟩
  | comp ref a r ih =>
    intro s f hsc hS hlt hnd h
    unfold walk at h
    by_cases hm : sameRef ref up = true
    · rw [if_pos hm] at h
      rcases hd with ⟨rfl, rfl⟩ | ⟨k, p, rfl, rfl, _⟩
      · cases h
        exact WGood.here numeric up sc _ s a ref false hS hlt hnd (by unfold routeW; rw [if_pos hm])
      · cases h
    · rw [if_neg hm] at h
      cases hw : walk numeric mark up down sc r s with
      | error e => rw [hw] at h; cases h
      | ok g =>
        rw [hw] at h
        cases h
        have hlt2 : ∀ x ∈ addrs r, x < s.fresh := fun x hx => hlt x (by simp [addrs, hx])
        have hnd2 := List.nodup_cons.1 hnd
        have g1 := ih s g hsc hS hlt2 hnd2.2 hw
        have ha := hlt a (by simp [addrs])
        refine ⟨g1.fresh, g1.vals, ?_, ?_, ?_, g1.circs, g1.static, ?_, ?_, ?_⟩
        · intro x hx
          rcases List.mem_cons.1 hx with rfl | hx
          · left; simp [addrs]
          · rcases g1.addr x hx with h | h
            · left; simp [addrs, h]
            · right; exact h
        · intro x hx
          rcases List.mem_cons.1 hx with rfl | hx
          · exact Nat.lt_of_lt_of_le ha g1.fresh
          · exact g1.lt x hx
        · refine List.nodup_cons.2 ⟨?_, g1.nodup⟩
          intro hx
          rcases g1.addr a hx with h | h
          · exact hnd2.1 h
          · omega
        · unfold routeW; rw [if_neg hm]; exact g1.route
        · intro r' sc' hs
          unfold look
          split_ifs
          · simp only [g1.vals a ha]
          · exact g1.look0 r' sc' hs
        · intro r' q sc' hs
          unfold look
          split_ifs
          · rfl
          · exact g1.lookq r' q sc' hs
  | inst ref a r ih =>
    intro s f hsc hS hlt hnd h
    have ha := hlt a (by simp [addrs])
    have hlt2 : ∀ x ∈ addrs r, x < s.fresh := fun x hx => hlt x (by simp [addrs, hx])
    have hnd2 := List.nodup_cons.1 hnd
    unfold walk at h
    by_cases hm : sameRef ref up = true
    · rw [if_pos hm] at h
      rcases hd with ⟨rfl, rfl⟩ | ⟨k, p, rfl, rfl, hk⟩
      · cases h
        exact WGood.here numeric up sc _ s a ref true hS hlt hnd (by unfold routeW; rw [if_pos hm])
      · simp only at h
        cases hdef : definition numeric sc (s.vals a) with
        | none => rw [hdef] at h; cases h
        | some b =>
          rw [hdef] at h
          simp only [clone] at h
          obtain ⟨hpb, hlb⟩ := definition_ok numeric hsc _ b hdef
          cases hc : cloneBody b s with
          | mk b' t =>
            rw [hc] at h
            simp only at h
            obtain ⟨c1, c2, c3, c4, c5, c6⟩ := clone_spec b s t b' hpb hlb hc
            cases hk1 : k sc (.text b') t with
            | error e => rw [hk1] at h; cases h
            | ok g =>
              rw [hk1] at h
              cases h
              have G := hk (.text b') t g (hsc.mono c2) (Pure.static b' c6) (fun x hx => (c4 x hx).2) c5 hk1
              have hvals : ∀ x, x < s.fresh → g.store.vals x = s.vals x := fun x hx => by
                rw [G.vals x (by omega), c3 x hx]
              have hgb : ∀ x ∈ addrs g.net, s.fresh ≤ x := by
                intro x hx
                rcases G.addr x hx with h | h
                · exact (c4 x h).1
                · omega
              refine ⟨by have := G.fresh; simp only; omega, hvals, ?_, ?_, ?_, fun _ => rfl, ⟨G.static, hS⟩, ?_, ?_, ?_⟩
              · intro x hx
                simp only [addrs, List.mem_cons, List.mem_append] at hx
                rcases hx with rfl | hx | hx
                · left; simp [addrs]
                · right; exact hgb x hx
                · left; simp [addrs, hx]
              · intro x hx
                simp only [addrs, List.mem_cons, List.mem_append] at hx
                have := G.fresh
                rcases hx with rfl | hx | hx
                · simp only; omega
                · exact G.lt x hx
                · have := hlt2 x hx; simp only; omega
              · simp only [addrs]
                refine List.nodup_cons.2 ⟨?_, ?_⟩
                · intro hx
                  rcases List.mem_append.1 hx with hx | hx
                  · have := hgb a hx; omega
                  · exact hnd2.1 hx
                · rw [List.nodup_append]
                  refine ⟨G.nodup, hnd2.2, ?_⟩
                  intro x hx y hy hxy
                  have := hgb x hx; have := hlt2 y hy; omega
              · unfold routeW; rw [if_pos hm]; simp only; rw [G.route]; simp
              · intro r' sc' hs
                unfold look
                by_cases hr : sameRef ref r' = true
                · rw [if_pos hr, if_pos hr]; simp only [hvals a ha]
                · rw [if_neg hr, if_neg hr]
                  exact (look_congr numeric s.vals g.store.vals r' none none (Or.inl ⟨rfl, rfl⟩) hs
                    (sim_of_agree _ _ r (fun x hx => (hvals x (hlt2 x hx)).symm))).symm
              · intro r' q sc' hs
                unfold look
                by_cases hr : sameRef ref r' = true
                · rw [if_pos hr, if_pos hr]
                  simp only [hdef]
                  rw [G.peek q sc' (ssim_left _ _ _ s.fresh hs hsc c3)]
                  exact (peek_congr numeric s.vals t.vals q sc sc b (.text b') (ssim_refl _ _ _ hsc (fun x hx => (c3 x hx).symm))
                    (.textR (c1 s.vals (fun _ _ => rfl)))).symm
                · rw [if_neg hr, if_neg hr]
                  exact (look_congr numeric s.vals g.store.vals r' _ _
                    (Or.inr ⟨_, _, rfl, rfl, fun s s' b b' h1 h2 => peek_congr numeric _ _ q s s' b b' h1 h2⟩) hs
                    (sim_of_agree _ _ r (fun x hx => (hvals x (hlt2 x hx)).symm))).symm
    · rw [if_neg hm] at h
      cases hw : walk numeric mark up down sc r s with
      | error e => rw [hw] at h; cases h
      | ok g =>
        rw [hw] at h
        cases h
        have g1 := ih s g hsc hS hlt2 hnd2.2 hw
        refine ⟨g1.fresh, g1.vals, ?_, ?_, ?_, g1.circs, g1.static, ?_, ?_, ?_⟩
        · intro x hx
          rcases List.mem_cons.1 hx with rfl | hx
          · left; simp [addrs]
          · rcases g1.addr x hx with h | h
            · left; simp [addrs, h]
            · right; exact h
        · intro x hx
          rcases List.mem_cons.1 hx with rfl | hx
          · exact Nat.lt_of_lt_of_le ha g1.fresh
          · exact g1.lt x hx
        · refine List.nodup_cons.2 ⟨?_, g1.nodup⟩
          intro hx
          rcases g1.addr a hx with h | h
          · exact hnd2.1 h
          · omega
        · unfold routeW; rw [if_neg hm]; exact g1.route
        · intro r' sc' hs
          unfold look
          split_ifs
          · simp only [g1.vals a ha]
          · exact g1.look0 r' sc' hs
        · intro r' q sc' hs
          unfold look
          split_ifs
          · simp only [g1.vals a ha]
            have hs2 := ssim_definition numeric _ _ (s.vals a) hs
            cases h1 : definition numeric sc (s.vals a) <;> cases h2 : definition numeric sc' (s.vals a) <;> rw [h1, h2] at hs2
            · exact hs2.elim
            · exact hs2.elim
            · exact (peek_congr numeric _ _ q _ _ _ _ hs hs2).symm
          · exact g1.lookq r' q sc' hs
  | opened ref a nm bo m r _ ih =>
    intro s f hsc hS hlt hnd h
    have ha := hlt a (by simp [addrs])
    have hlt2 : ∀ x ∈ addrs r, x < s.fresh := fun x hx => hlt x (by simp [addrs, hx])
    have hltb : ∀ x ∈ addrs bo, x < s.fresh := fun x hx => hlt x (by simp [addrs, hx])
    have hnd2 := List.nodup_cons.1 hnd
    have hnd3 := List.nodup_append.1 hnd2.2
    have haB : a ∉ addrs bo := fun hx => hnd2.1 (List.mem_append.2 (Or.inl hx))
    have haR : a ∉ addrs r := fun hx => hnd2.1 (List.mem_append.2 (Or.inr hx))
    unfold walk at h
    by_cases hm : sameRef ref up = true
    · rw [if_pos hm] at h
      rcases hd with ⟨rfl, rfl⟩ | ⟨k, p, rfl, rfl, hk⟩
      · cases h
        exact WGood.here numeric up sc _ s a ref true hS hlt hnd (by unfold routeW; rw [if_pos hm])
      · simp only at h
        cases hk1 : k sc bo s with
        | error e => rw [hk1] at h; cases h
        | ok g =>
          rw [hk1] at h
          cases h
          have G := hk bo s g hsc hS.1 hltb hnd3.1 hk1
          have hvals := G.vals
          refine ⟨G.fresh, hvals, ?_, ?_, ?_, fun _ => rfl, ⟨G.static, hS.2⟩, ?_, ?_, ?_⟩
          · intro x hx
            simp only [addrs, List.mem_cons, List.mem_append] at hx
            rcases hx with rfl | hx | hx
            · left; simp [addrs]
            · rcases G.addr x hx with h | h
              · left; simp [addrs, h]
              · right; exact h
            · left; simp [addrs, hx]
          · intro x hx
            simp only [addrs, List.mem_cons, List.mem_append] at hx
            have := G.fresh
            rcases hx with rfl | hx | hx
            · simp only; omega
            · exact G.lt x hx
            · have := hlt2 x hx; simp only; omega
          · simp only [addrs]
            refine List.nodup_cons.2 ⟨?_, ?_⟩
            · intro hx
              rcases List.mem_append.1 hx with hx | hx
              · rcases G.addr a hx with h | h
                · exact haB h
                · omega
              · exact haR hx
            · rw [List.nodup_append]
              refine ⟨G.nodup, hnd3.2.1, ?_⟩
              intro x hx y hy hxy
              rcases G.addr x hx with h | h
              · exact hnd3.2.2 x h y hy hxy
              · have := hlt2 y hy; omega
          · unfold routeW; rw [if_pos hm]; simp only; rw [G.route]; simp
          · intro r' sc' hs
            unfold look
            by_cases hr : sameRef ref r' = true
            · rw [if_pos hr, if_pos hr]; simp only [hvals a ha]
            · rw [if_neg hr, if_neg hr]
              exact (look_congr numeric s.vals g.store.vals r' none none (Or.inl ⟨rfl, rfl⟩) hs
                (sim_of_agree _ _ r (fun x hx => (hvals x (hlt2 x hx)).symm))).symm
          · intro r' q sc' hs
            unfold look
            by_cases hr : sameRef ref r' = true
            · rw [if_pos hr, if_pos hr]
              exact G.peek q sc' hs
            · rw [if_neg hr, if_neg hr]
              exact (look_congr numeric s.vals g.store.vals r' _ _
                (Or.inr ⟨_, _, rfl, rfl, fun s s' b b' h1 h2 => peek_congr numeric _ _ q s s' b b' h1 h2⟩) hs
                (sim_of_agree _ _ r (fun x hx => (hvals x (hlt2 x hx)).symm))).symm
    · rw [if_neg hm] at h
      cases hw : walk numeric mark up down sc r s with
      | error e => rw [hw] at h; cases h
      | ok g =>
        rw [hw] at h
        cases h
        have g1 := ih s g hsc hS.2 hlt2 hnd3.2.1 hw
        refine ⟨g1.fresh, g1.vals, ?_, ?_, ?_, g1.circs, ⟨hS.1, g1.static⟩, ?_, ?_, ?_⟩
        · intro x hx
          simp only [addrs, List.mem_cons, List.mem_append] at hx
          rcases hx with rfl | hx | hx
          · left; simp [addrs]
          · left; simp [addrs, hx]
          · rcases g1.addr x hx with h | h
            · left; simp [addrs, h]
            · right; exact h
        · intro x hx
          simp only [addrs, List.mem_cons, List.mem_append] at hx
          have := g1.fresh
          rcases hx with rfl | hx | hx
          · simp only; omega
          · have := hltb x hx; simp only; omega
          · exact g1.lt x hx
        · simp only [addrs]
          refine List.nodup_cons.2 ⟨?_, ?_⟩
          · intro hx
            rcases List.mem_append.1 hx with hx | hx
            · exact haB hx
            · rcases g1.addr a hx with h | h
              · exact haR h
              · omega
          · rw [List.nodup_append]
            refine ⟨hnd3.1, g1.nodup, ?_⟩
            intro x hx y hy hxy
            rcases g1.addr y hy with h | h
            · exact hnd3.2.2 x hx y h hxy
            · have := hltb x hx; omega
        · unfold routeW; rw [if_neg hm]; exact g1.route
        · intro r' sc' hs
          unfold look
          split_ifs
          · simp only [g1.vals a ha]
          · exact g1.look0 r' sc' hs
        · intro r' q sc' hs
          unfold look
          split_ifs
          · exact (peek_congr numeric _ _ q _ _ _ _ hs (sim_of_agree _ _ bo (fun x hx => (g1.vals x (hltb x hx)).symm))).symm
          · exact g1.lookq r' q sc' hs
  | circ nm bo r _ ih =>
    intro s f hsc hS hlt hnd h
    have hlt2 : ∀ x ∈ addrs r, x < s.fresh := fun x hx => hlt x (by simp [addrs, hx])
    have hltb : ∀ x ∈ addrs bo, x < s.fresh := fun x hx => hlt x (by simp [addrs, hx])
    have hnd3 := List.nodup_append.1 hnd
    unfold walk at h
    by_cases hm : sameRef nm up = true
    · rw [if_pos hm] at h; cases h
    · rw [if_neg hm] at h
      cases hw : walk numeric mark up down sc r s with
      | error e => rw [hw] at h; cases h
      | ok g =>
        rw [hw] at h
        cases h
        have g1 := ih s g hsc hS.2 hlt2 hnd3.2.1 hw
        refine ⟨g1.fresh, g1.vals, ?_, ?_, ?_, ?_, ⟨hS.1, g1.static⟩, ?_, ?_, ?_⟩
        · intro x hx
          simp only [addrs, List.mem_append] at hx
          rcases hx with hx | hx
          · left; simp [addrs, hx]
          · rcases g1.addr x hx with h | h
            · left; simp [addrs, h]
            · right; exact h
        · intro x hx
          simp only [addrs, List.mem_append] at hx
          have := g1.fresh
          rcases hx with hx | hx
          · have := hltb x hx; simp only; omega
          · exact g1.lt x hx
        · simp only [addrs]
          rw [List.nodup_append]
          refine ⟨hnd3.1, g1.nodup, ?_⟩
          intro x hx y hy hxy
          rcases g1.addr y hy with h | h
          · exact hnd3.2.2 x hx y h hxy
          · have := hltb x hx; omega
        · intro name; unfold findCirc; split_ifs
          · rfl
          · exact g1.circs name
        · unfold routeW; rw [if_neg hm]; exact g1.route
        · intro r' sc' hs
          unfold look
          split_ifs
          · rfl
          · exact g1.look0 r' sc' hs
        · intro r' q sc' hs
          unfold look
          split_ifs
          · rfl
          · exact g1.lookq r' q sc' hs

theorem locate_good (numeric : Str → Bool) (mark : Bool) : ∀ (p : List Str) (sc : List Net) (n : Net) (s : Store) (f : Found), ScopeOK sc s.fresh → Static n →
    (∀ a ∈ addrs n, a < s.fresh) → (addrs n).Nodup → locate numeric mark p sc n s = .ok f → Good numeric p sc n s f := by
  intro p
  induction p with
  | nil => intro sc n s f _ _ _ _ h; simp [locate] at h
  | cons r p ih =>
    intro sc n s f hsc hS hlt hnd h
    have key : ∀ (down : Option (List Net → Net → Store → Except LErr Found)) (dp : Option (Net → Option (List Nat))),
        WGood numeric r dp (n :: sc) n s f → routeW r dp f.net = route (r :: p) f.net → Good numeric (r :: p) sc n s f := by
      intro down dp W hr
      refine ⟨W.fresh, W.vals, W.addr, W.lt, W.nodup, W.circs, W.static, by rw [← hr]; exact W.route, ?_⟩
      intro q sc' hs
      have hs2 : SSim s.vals f.store.vals (n :: sc) (f.net :: sc') := by
        refine .cons ?_ hs
        intro name
        rw [W.circs name]
        cases hf : findCirc name n with
        | none => trivial
        | some b => exact sim_of_agree _ _ b (fun a ha => (W.vals a (hlt a (find_addrs name n b hf a ha))).symm)
      cases q with
      | nil => rfl
      | cons r' q =>
        cases q with
        | nil => exact W.look0 r' _ hs2
        | cons r2 q =>
          unfold peek
          split_ifs
          · exact W.lookq r' (r2 :: q) _ hs2
          · rfl
    cases p with
    | nil =>
      unfold locate at h
      exact key none none (walk_good numeric mark r none none (n :: sc) (Or.inl ⟨rfl, rfl⟩) n s f (hsc.cons hS hlt) hS hlt hnd h) rfl
    | cons r2 p =>
      unfold locate at h
      split_ifs at h with hx
      refine key none (some (route (r2 :: p))) (walk_good numeric mark r _ _ (n :: sc)
        (Or.inr ⟨_, r2 :: p, rfl, rfl, fun b s f h1 h2 h3 h4 h5 => ih (n :: sc) b s f h1 h2 h3 h4 h5⟩) n s f (hsc.cons hS hlt) hS hlt hnd h) ?_
      conv => rhs; unfold route
      simp only [hx, if_true]

end Lemmas.Hier
