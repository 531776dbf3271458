import Verif.Lemmas.Hier2
namespace Lemmas.Hier
open Model.PyStr Model.Hier Spec.Hier
open Model.Netlist (Str)

theorem routeW_sub (up : Str) (dp : Option (Net → Option (List Nat))) (hd : ∀ k, dp = some k → ∀ b W, k b = some W → W.Sublist (addrs b)) :
    ∀ (n : Net) (W : List Nat), routeW up dp n = some W → W.Sublist (addrs n) := by
  intro n
  induction n with
  | nil => intro W h; simp [routeW] at h
  | bad r ih => intro W h; simp [routeW] at h
  | text r ih => exact ih
  | comp ref a r ih =>
    intro W h
    unfold routeW at h
    by_cases hm : sameRef ref up = true
    · rw [if_pos hm] at h
      cases dp with
      | none => cases h; simp [addrs]
      | some k => cases h
    · rw [if_neg hm] at h; exact (ih W h).cons a
  | inst ref a r ih =>
    intro W h
    unfold routeW at h
    by_cases hm : sameRef ref up = true
    · rw [if_pos hm] at h
      cases dp with
      | none => cases h; simp [addrs]
      | some k => cases h
    · rw [if_neg hm] at h; exact (ih W h).cons a
  | opened ref a nm b m r _ ih =>
    intro W h
    unfold routeW at h
    by_cases hm : sameRef ref up = true
    · rw [if_pos hm] at h
      cases dp with
      | none => cases h; simp [addrs]
      | some k =>
        simp only at h
        cases hk : k b with
        | none => rw [hk] at h; cases h
        | some W' =>
          rw [hk] at h; cases h
          exact ((hd k rfl b W' hk).trans (List.sublist_append_left _ _)).cons₂ a
    · rw [if_neg hm] at h; exact ((ih W h).trans (List.sublist_append_right _ _)).cons a
  | circ nm b r _ ih =>
    intro W h
    unfold routeW at h
    by_cases hm : sameRef nm up = true
    · rw [if_pos hm] at h; cases h
    · rw [if_neg hm] at h; exact (ih W h).trans (List.sublist_append_right _ _)

theorem route_sub : ∀ (p : List Str) (n : Net) (W : List Nat), route p n = some W → W.Sublist (addrs n) := by
  intro p
  induction p with
  | nil => intro n W h; simp [route] at h
  | cons r p ih =>
    intro n W h
    cases p with
    | nil => exact routeW_sub r none (by simp) n W h
    | cons r2 p =>
      unfold route at h
      split_ifs at h
      exact routeW_sub r _ (by intro k hk; cases hk; exact ih) n W h

theorem routeW_defs (up : Str) (dp : Option (Net → Option (List Nat))) (hd : ∀ k, dp = some k → ∀ b W, k b = some W → W.Sublist (addrs b)) :
    ∀ (n : Net) (W : List Nat), routeW up dp n = some W → (addrs n).Nodup → ∀ a ∈ defAddrs n, a ∉ W := by
  intro n
  induction n with
  | nil => intro W h; simp [routeW] at h
  | bad r ih => intro W h; simp [routeW] at h
  | text r ih => exact ih
  | comp ref x r ih =>
    intro W h hnd a ha
    have hnd2 := List.nodup_cons.1 hnd
    unfold routeW at h
    by_cases hm : sameRef ref up = true
    · rw [if_pos hm] at h
      cases dp with
      | none =>
        cases h
        intro hx
        rw [List.mem_singleton] at hx
        exact hnd2.1 (hx ▸ defAddrs_addrs r a ha)
      | some k => cases h
    · rw [if_neg hm] at h; exact ih W h hnd2.2 a ha
  | inst ref x r ih =>
    intro W h hnd a ha
    have hnd2 := List.nodup_cons.1 hnd
    unfold routeW at h
    by_cases hm : sameRef ref up = true
    · rw [if_pos hm] at h
      cases dp with
      | none =>
        cases h
        intro hx
        rw [List.mem_singleton] at hx
        exact hnd2.1 (hx ▸ defAddrs_addrs r a ha)
      | some k => cases h
    · rw [if_neg hm] at h; exact ih W h hnd2.2 a ha
  | opened ref x nm b m r _ ih =>
    intro W h hnd a ha
    have hnd2 := List.nodup_cons.1 hnd
    have hnd3 := List.nodup_append.1 hnd2.2
    have har := defAddrs_addrs r a ha
    have hax : a ≠ x := fun e => hnd2.1 (List.mem_append.2 (Or.inr (e ▸ har)))
    unfold routeW at h
    by_cases hm : sameRef ref up = true
    · rw [if_pos hm] at h
      cases dp with
      | none => cases h; simp [hax]
      | some k =>
        simp only at h
        cases hk : k b with
        | none => rw [hk] at h; cases h
        | some W' =>
          rw [hk] at h; cases h
          intro hx
          rcases List.mem_cons.1 hx with hx | hx
          · exact hax hx
          · exact hnd3.2.2 a ((hd k rfl b W' hk).subset hx) a har rfl
    · rw [if_neg hm] at h; exact ih W h hnd3.2.1 a ha
  | circ nm b r _ ih =>
    intro W h hnd a ha
    have hnd3 := List.nodup_append.1 hnd
    unfold routeW at h
    by_cases hm : sameRef nm up = true
    · rw [if_pos hm] at h; cases h
    · rw [if_neg hm] at h
      rcases List.mem_append.1 ha with ha | ha
      · exact fun hx => hnd3.2.2 a ha a ((routeW_sub up dp hd r W h).subset hx) rfl
      · exact ih W h hnd3.2.1 a ha

theorem sameRef_eq {ref u w : Str} (h1 : sameRef ref u = true) (h2 : sameRef ref w = true) : u = w := by
  unfold sameRef at h1 h2
  rw [← of_decide_eq_true h1, ← of_decide_eq_true h2]

/-- Two continuations of a look-up that agree on similar netlists. -/
def DRel (v v' : Nat → Str) (d d' : Option (List Net → Net → Option Str)) : Prop :=
  (d = none ∧ d' = none) ∨ ∃ k k', d = some k ∧ d' = some k' ∧ ∀ s s' b b', SSim v v' s s' → Sim v v' b b' → k s b = k' s' b'

theorem look_frame (numeric : Str → Bool) (v v' : Nat → Str) (up up' : Str) (dp : Option (Net → Option (List Nat)))
    (hsub : ∀ k, dp = some k → ∀ b W, k b = some W → W.Sublist (addrs b))
    (d d' : Option (List Net → Net → Option Str)) (hd : DRel v v' d d') (S : List Net) (hS : SSim v v' S S)
    (hk : up' = up → ∃ k k1 k1', dp = some k ∧ d = some k1 ∧ d' = some k1' ∧ ∀ b W, k b = some W → (addrs b).Nodup → (∀ a ∈ addrs b, a ∉ W → v a = v' a) →
      k1 S b = k1' S b) :
    ∀ (n : Net) (W : List Nat), routeW up dp n = some W → (addrs n).Nodup → (∀ a ∈ addrs n, a ∉ W → v a = v' a) →
      look numeric v up' d S n = look numeric v' up' d' S n := by
  intro n
  induction n with
  | nil => intro W h; simp [routeW] at h
  | bad r ih => intro W h; simp [routeW] at h
  | text r ih => exact ih
  | comp ref x r ih =>
    intro W h hnd hag
    have hnd2 := List.nodup_cons.1 hnd
    unfold routeW at h
    by_cases hm : sameRef ref up = true
    · rw [if_pos hm] at h
      cases dp with
      | some k => cases h
      | none =>
        cases h
        have hne : ¬ sameRef ref up' = true := by
          intro h2
          obtain ⟨k, _, _, h0, _⟩ := hk (sameRef_eq h2 hm)
          cases h0
        unfold look
        rw [if_neg hne, if_neg hne]
        refine look_congr numeric v v' up' d d' hd hS (sim_of_agree v v' r (fun a ha => hag a (by simp [addrs, ha]) ?_))
        intro hx
        rw [List.mem_singleton] at hx
        exact hnd2.1 (hx ▸ ha)
    · rw [if_neg hm] at h
      have hW := (routeW_sub up dp hsub r W h).subset
      unfold look
      by_cases hm' : sameRef ref up' = true
      · rw [if_pos hm', if_pos hm']
        have : v x = v' x := hag x (by simp [addrs]) (fun hx => hnd2.1 (hW hx))
        rcases hd with ⟨rfl, rfl⟩ | ⟨k, k', rfl, rfl, _⟩
        · simp only [this]
        · rfl
      · rw [if_neg hm', if_neg hm']
        exact ih W h hnd2.2 (fun a ha => hag a (by simp [addrs, ha]))
  | inst ref x r ih =>
    intro W h hnd hag
    have hnd2 := List.nodup_cons.1 hnd
    unfold routeW at h
    by_cases hm : sameRef ref up = true
    · rw [if_pos hm] at h
      cases dp with
      | some k => cases h
      | none =>
        cases h
        have hne : ¬ sameRef ref up' = true := by
          intro h2
          obtain ⟨k, _, _, h0, _⟩ := hk (sameRef_eq h2 hm)
          cases h0
        unfold look
        rw [if_neg hne, if_neg hne]
        refine look_congr numeric v v' up' d d' hd hS (sim_of_agree v v' r (fun a ha => hag a (by simp [addrs, ha]) ?_))
        intro hx
        rw [List.mem_singleton] at hx
        exact hnd2.1 (hx ▸ ha)
    · rw [if_neg hm] at h
      have hW := (routeW_sub up dp hsub r W h).subset
      unfold look
      by_cases hm' : sameRef ref up' = true
      · rw [if_pos hm', if_pos hm']
        have : v x = v' x := hag x (by simp [addrs]) (fun hx => hnd2.1 (hW hx))
        rcases hd with ⟨rfl, rfl⟩ | ⟨k, k', rfl, rfl, hkk⟩
        · simp only [this]
        · simp only [this]
          have hs2 := ssim_definition numeric _ _ (v' x) hS
          cases h1 : definition numeric S (v' x) with
          | none => rfl
          | some b => rw [h1] at hs2; exact hkk _ _ _ _ hS hs2
      · rw [if_neg hm', if_neg hm']
        exact ih W h hnd2.2 (fun a ha => hag a (by simp [addrs, ha]))
  | opened ref x nm b m r _ ih =>
    intro W h hnd hag
    have hnd2 := List.nodup_cons.1 hnd
    have hnd3 := List.nodup_append.1 hnd2.2
    unfold routeW at h
    by_cases hm : sameRef ref up = true
    · rw [if_pos hm] at h
      cases dp with
      | none =>
        cases h
        have hne : ¬ sameRef ref up' = true := by
          intro h2
          obtain ⟨k, _, _, h0, _⟩ := hk (sameRef_eq h2 hm)
          cases h0
        unfold look
        rw [if_neg hne, if_neg hne]
        refine look_congr numeric v v' up' d d' hd hS (sim_of_agree v v' r (fun a ha => hag a (by simp [addrs, ha]) ?_))
        intro hx
        rw [List.mem_singleton] at hx
        exact hnd2.1 (List.mem_append.2 (Or.inr (hx ▸ ha)))
      | some k =>
        simp only at h
        cases hkb : k b with
        | none => rw [hkb] at h; cases h
        | some W' =>
          rw [hkb] at h; cases h
          have hW' := (hsub k rfl b W' hkb).subset
          unfold look
          by_cases hm' : sameRef ref up' = true
          · rw [if_pos hm', if_pos hm']
            obtain ⟨k0, k1, k1', h0, rfl, rfl, hb⟩ := hk (sameRef_eq hm' hm)
            cases h0
            refine hb b W' hkb hnd3.1 (fun a ha hn => hag a (by simp [addrs, ha]) ?_)
            intro hx
            rcases List.mem_cons.1 hx with hx | hx
            · exact hnd2.1 (List.mem_append.2 (Or.inl (hx ▸ ha)))
            · exact hn hx
          · rw [if_neg hm', if_neg hm']
            refine look_congr numeric v v' up' d d' hd hS (sim_of_agree v v' r (fun a ha => hag a (by simp [addrs, ha]) ?_))
            intro hx
            rcases List.mem_cons.1 hx with hx | hx
            · exact hnd2.1 (List.mem_append.2 (Or.inr (hx ▸ ha)))
            · exact hnd3.2.2 a (hW' hx) a ha rfl
    · rw [if_neg hm] at h
      have hW := (routeW_sub up dp hsub r W h).subset
      unfold look
      by_cases hm' : sameRef ref up' = true
      · rw [if_pos hm', if_pos hm']
        have : v x = v' x := hag x (by simp [addrs]) (fun hx => hnd2.1 (List.mem_append.2 (Or.inr (hW hx))))
        rcases hd with ⟨rfl, rfl⟩ | ⟨k, k', rfl, rfl, hkk⟩
        · simp only [this]
        · refine hkk _ _ _ _ hS (sim_of_agree v v' b (fun a ha => hag a (by simp [addrs, ha]) ?_))
          exact fun hx => hnd3.2.2 a ha a (hW hx) rfl
      · rw [if_neg hm', if_neg hm']
        exact ih W h hnd3.2.1 (fun a ha => hag a (by simp [addrs, ha]))
  | circ nm b r _ ih =>
    intro W h hnd hag
    have hnd3 := List.nodup_append.1 hnd
    unfold routeW at h
    by_cases hm : sameRef nm up = true
    · rw [if_pos hm] at h; cases h
    · rw [if_neg hm] at h
      unfold look
      by_cases hm' : sameRef nm up' = true
      · rw [if_pos hm', if_pos hm']
      · rw [if_neg hm', if_neg hm']
        exact ih W h hnd3.2.1 (fun a ha => hag a (by simp [addrs, ha]))

theorem drel_none (v v' : Nat → Str) : DRel v v' none none := Or.inl ⟨rfl, rfl⟩
theorem drel_peek (numeric : Str → Bool) (v v' : Nat → Str) (q : List Str) : DRel v v' (some (peek numeric v q)) (some (peek numeric v' q)) :=
  Or.inr ⟨_, _, rfl, rfl, fun s s' b b' h1 h2 => peek_congr numeric _ _ q s s' b b' h1 h2⟩

theorem ssim_route (v v' : Nat → Str) (p : List Str) (n : Net) (W : List Nat) (sc : List Net) (hS : SSim v v' sc sc) (hr : route p n = some W) (hnd : (addrs n).Nodup)
    (hag : ∀ a ∈ addrs n, a ∉ W → v a = v' a) : SSim v v' (n :: sc) (n :: sc) := by
  refine .cons ?_ hS
  intro name
  cases hf : findCirc name n with
  | none => trivial
  | some b =>
    refine sim_of_agree _ _ b (fun a ha => hag a (find_addrs name n b hf a ha) ?_)
    have hda := find_defAddrs name n b hf a ha
    cases p with
    | nil => simp [route] at hr
    | cons r p =>
      cases p with
      | nil => exact routeW_defs r none (by simp) n W hr hnd a hda
      | cons r2 p =>
        unfold route at hr
        split_ifs at hr
        exact routeW_defs r _ (by intro k hk; cases hk; exact route_sub _) n W hr hnd a hda

/-- Writing to the cells on a path changes nothing that is seen at a path that diverges from it. -/
theorem peek_frame (numeric : Str → Bool) (v v' : Nat → Str) : ∀ (p q : List Str) (sc : List Net) (n : Net) (W : List Nat), SSim v v' sc sc → route p n = some W →
    (addrs n).Nodup → (∀ a ∈ addrs n, a ∉ W → v a = v' a) → ¬ p <+: q → ¬ q <+: p → peek numeric v q sc n = peek numeric v' q sc n := by
  intro p
  induction p with
  | nil => intro q sc n W _ hr; simp [route] at hr
  | cons r p ih =>
    intro q sc n W hS hr hnd hag h1 h2
    have hS2 := ssim_route v v' (r :: p) n W sc hS hr hnd hag
    cases q with
    | nil => exact (h2 List.nil_prefix).elim
    | cons r' q =>
      have hne : r' = r → ¬ p <+: q ∧ ¬ q <+: p := by
        rintro rfl
        simp only [List.cons_prefix_cons, true_and] at h1 h2
        exact ⟨h1, h2⟩
      have hpne : r' = r → p ≠ [] ∧ q ≠ [] := fun e => ⟨fun h => (hne e).1 (h ▸ List.nil_prefix), fun h => (hne e).2 (h ▸ List.nil_prefix)⟩
      have fin : ∀ (d d' : Option (List Net → Net → Option Str)), DRel v v' d d' → (r' = r → d = some (peek numeric v q) ∧ d' = some (peek numeric v' q)) →
          look numeric v r' d (n :: sc) n = look numeric v' r' d' (n :: sc) n := by
        intro d d' hdd hdq
        cases p with
        | nil =>
          exact look_frame numeric v v' r r' none (by simp) d d' hdd _ hS2 (fun e => ((hpne e).1 rfl).elim) n W hr hnd hag
        | cons r2 p =>
          unfold route at hr
          split_ifs at hr
          refine look_frame numeric v v' r r' _ (by intro k hk; cases hk; exact route_sub _) d d' hdd _ hS2 ?_ n W hr hnd hag
          intro e
          refine ⟨_, _, _, rfl, (hdq e).1, (hdq e).2, ?_⟩
          intro b W' hb hnb hab
          exact ih q (n :: sc) b W' hS2 hb hnb hab (hne e).1 (hne e).2
      cases q with
      | nil =>
        exact fin none none (drel_none v v') (fun e => ((hpne e).2 rfl).elim)
      | cons q2 q =>
        unfold peek
        split_ifs
        · exact fin _ _ (drel_peek numeric v v' _) (fun _ => ⟨rfl, rfl⟩)
        · rfl

theorem look_route (numeric : Str → Bool) (v : Nat → Str) (up : Str) (sc : List Net) (dp : Option (Net → Option (List Nat))) (d : Option (List Net → Net → Option Str))
    (hd : (dp = none ∧ d = none) ∨ ∃ k k', dp = some k ∧ d = some k' ∧ ∀ b W, k b = some W → W ≠ [] ∧ k' sc b = W.getLast?.map v) :
    ∀ (n : Net) (W : List Nat), routeW up dp n = some W → W ≠ [] ∧ look numeric v up d sc n = W.getLast?.map v := by
  intro n
  induction n with
  | nil => intro W h; simp [routeW] at h
  | bad r ih => intro W h; simp [routeW] at h
  | text r ih => exact ih
  | comp ref x r ih =>
    intro W h
    unfold routeW at h
    unfold look
    by_cases hm : sameRef ref up = true
    · rw [if_pos hm] at h
      rw [if_pos hm]
      rcases hd with ⟨rfl, rfl⟩ | ⟨k, k', rfl, rfl, hk⟩
      · cases h; simp
      · cases h
    · rw [if_neg hm] at h; rw [if_neg hm]; exact ih W h
  | inst ref x r ih =>
    intro W h
    unfold routeW at h
    unfold look
    by_cases hm : sameRef ref up = true
    · rw [if_pos hm] at h
      rw [if_pos hm]
      rcases hd with ⟨rfl, rfl⟩ | ⟨k, k', rfl, rfl, hk⟩
      · cases h; simp
      · cases h
    · rw [if_neg hm] at h; rw [if_neg hm]; exact ih W h
  | opened ref x nm b m r _ ih =>
    intro W h
    unfold routeW at h
    unfold look
    by_cases hm : sameRef ref up = true
    · rw [if_pos hm] at h
      rw [if_pos hm]
      rcases hd with ⟨rfl, rfl⟩ | ⟨k, k', rfl, rfl, hk⟩
      · cases h; simp
      · simp only at h ⊢
        cases hkb : k b with
        | none => rw [hkb] at h; cases h
        | some W' =>
          rw [hkb] at h
          cases h
          obtain ⟨g1, g2⟩ := hk b W' hkb
          refine ⟨by simp, ?_⟩
          rw [g2]
          cases W' with
          | nil => exact (g1 rfl).elim
          | cons w ws => rfl
    · rw [if_neg hm] at h; rw [if_neg hm]; exact ih W h
  | circ nm b r _ ih =>
    intro W h
    unfold routeW at h
    unfold look
    by_cases hm : sameRef nm up = true
    · rw [if_pos hm] at h; cases h
    · rw [if_neg hm] at h; rw [if_neg hm]; exact ih W h

/-- What is seen at the end of a path through copies is the content of its last cell. -/
theorem peek_route (numeric : Str → Bool) (v : Nat → Str) : ∀ (p : List Str) (sc : List Net) (n : Net) (W : List Nat), route p n = some W →
    W ≠ [] ∧ peek numeric v p sc n = W.getLast?.map v := by
  intro p
  induction p with
  | nil => intro sc n W h; simp [route] at h
  | cons r p ih =>
    intro sc n W h
    cases p with
    | nil => exact look_route numeric v r (n :: sc) none none (Or.inl ⟨rfl, rfl⟩) n W h
    | cons r2 p =>
      unfold route at h
      split_ifs at h with hx
      unfold peek
      rw [if_pos hx]
      exact look_route numeric v r (n :: sc) _ _ (Or.inr ⟨_, _, rfl, rfl, fun b W' hb => ih (n :: sc) b W' hb⟩) n W h

/-- A failing look-up sees nothing. -/
theorem walk_error (numeric : Str → Bool) (mark : Bool) (up : Str) (down : Option (List Net → Net → Store → Except LErr Found))
    (d : (Nat → Str) → Option (List Net → Net → Option Str)) (sc : List Net)
    (hd : (down = none ∧ ∀ v, d v = none) ∨ ∃ k q, down = some k ∧ (∀ v, d v = some (peek numeric v q)) ∧ ∀ b s e, ScopeOK sc s.fresh → Static b →
      (∀ a ∈ addrs b, a < s.fresh) → (addrs b).Nodup → k sc b s = .error e → peek numeric s.vals q sc b = none) :
    ∀ (n : Net) (s : Store) (e : LErr), ScopeOK sc s.fresh → Static n → (∀ a ∈ addrs n, a < s.fresh) → (addrs n).Nodup →
      walk numeric mark up down sc n s = .error e → look numeric s.vals up (d s.vals) sc n = none := by
  intro n
  induction n with
  | nil => intro s e _ _ _ _ h; rfl
  | bad r ih => intro s e _ _ _ _ h; rfl
  | text r ih =>
    intro s e hsc hS hlt hnd h
    unfold walk at h
    cases hw : walk numeric mark up down sc r s with
    | error e' => exact ih s e' hsc hS hlt hnd hw
    | ok g => rw [hw] at h; cases h
  | comp ref a r ih =>
    intro s e hsc hS hlt hnd h
    unfold walk at h
    unfold look
    by_cases hm : sameRef ref up = true
    · rw [if_pos hm] at h; rw [if_pos hm]
      rcases hd with ⟨rfl, hd⟩ | ⟨k, q, rfl, hd, _⟩
      · cases h
      · rw [hd]
    · rw [if_neg hm] at h; rw [if_neg hm]
      have hnd2 := List.nodup_cons.1 hnd
      cases hw : walk numeric mark up down sc r s with
      | error e' => exact ih s e' hsc hS (fun x hx => hlt x (by simp [addrs, hx])) hnd2.2 hw
      | ok g => rw [hw] at h; cases h
  | inst ref a r ih =>
    intro s e hsc hS hlt hnd h
    unfold walk at h
    unfold look
    by_cases hm : sameRef ref up = true
    · rw [if_pos hm] at h; rw [if_pos hm]
      rcases hd with ⟨rfl, hd⟩ | ⟨k, q, rfl, hd, hk⟩
      · cases h
      · rw [hd]
        simp only at h ⊢
        cases hdef : definition numeric sc (s.vals a) with
        | none => rfl
        | some b =>
          rw [hdef] at h
          simp only [clone] at h
          obtain ⟨hpb, hlb⟩ := definition_ok numeric hsc _ b hdef
          cases hc : cloneBody b s with
          | mk b' t =>
            rw [hc] at h
            simp only at h
            obtain ⟨c1, c2, c3, c4, c5, c6⟩ := clone_spec b s t b' hpb hlb hc
            cases hk1 : k sc (.text b') t with
            | ok g => rw [hk1] at h; cases h
            | error e' =>
              have := hk (.text b') t e' (hsc.mono c2) (Pure.static b' c6) (fun x hx => (c4 x hx).2) c5 hk1
              simp only
              rw [peek_congr numeric s.vals t.vals q sc sc b (.text b') (ssim_refl _ _ _ hsc (fun x hx => (c3 x hx).symm))
                    (.textR (c1 s.vals (fun _ _ => rfl)))]
              exact this
    · rw [if_neg hm] at h; rw [if_neg hm]
      have hnd2 := List.nodup_cons.1 hnd
      cases hw : walk numeric mark up down sc r s with
      | error e' => exact ih s e' hsc hS (fun x hx => hlt x (by simp [addrs, hx])) hnd2.2 hw
      | ok g => rw [hw] at h; cases h
  | opened ref a nm bo m r _ ih =>
    intro s e hsc hS hlt hnd h
    have hnd2 := List.nodup_cons.1 hnd
    have hnd3 := List.nodup_append.1 hnd2.2
    unfold walk at h
    unfold look
    by_cases hm : sameRef ref up = true
    · rw [if_pos hm] at h; rw [if_pos hm]
      rcases hd with ⟨rfl, hd⟩ | ⟨k, q, rfl, hd, hk⟩
      · cases h
      · rw [hd]
        simp only at h ⊢
        cases hk1 : k sc bo s with
        | ok g => rw [hk1] at h; cases h
        | error e' => exact hk bo s e' hsc hS.1 (fun x hx => hlt x (by simp [addrs, hx])) hnd3.1 hk1
    · rw [if_neg hm] at h; rw [if_neg hm]
      cases hw : walk numeric mark up down sc r s with
      | error e' => exact ih s e' hsc hS.2 (fun x hx => hlt x (by simp [addrs, hx])) hnd3.2.1 hw
      | ok g => rw [hw] at h; cases h
  | circ nm bo r _ ih =>
    intro s e hsc hS hlt hnd h
    have hnd3 := List.nodup_append.1 hnd
    unfold walk at h
    unfold look
    by_cases hm : sameRef nm up = true
    · rw [if_pos hm]
    · rw [if_neg hm] at h; rw [if_neg hm]
      cases hw : walk numeric mark up down sc r s with
      | error e' => exact ih s e' hsc hS.2 (fun x hx => hlt x (by simp [addrs, hx])) hnd3.2.1 hw
      | ok g => rw [hw] at h; cases h

theorem locate_error (numeric : Str → Bool) (mark : Bool) : ∀ (p : List Str) (sc : List Net) (n : Net) (s : Store) (e : LErr), ScopeOK sc s.fresh → Static n →
    (∀ a ∈ addrs n, a < s.fresh) → (addrs n).Nodup → locate numeric mark p sc n s = .error e → peek numeric s.vals p sc n = none := by
  intro p
  induction p with
  | nil => intros; rfl
  | cons r p ih =>
    intro sc n s e hsc hS hlt hnd h
    cases p with
    | nil => exact walk_error numeric mark r none (fun _ => none) (n :: sc) (Or.inl ⟨rfl, fun _ => rfl⟩) n s e (hsc.cons hS hlt) hS hlt hnd h
    | cons r2 p =>
      unfold locate at h
      unfold peek
      split_ifs at h ⊢ with hx
      · exact walk_error numeric mark r _ (fun v => some (peek numeric v (r2 :: p))) (n :: sc)
          (Or.inr ⟨_, r2 :: p, rfl, fun _ => rfl, fun b s e h1 h2 h3 h4 h5 => ih (n :: sc) b s e h1 h2 h3 h4 h5⟩) n s e (hsc.cons hS hlt) hS hlt hnd h
      · rfl

/-! ### Dropping a copy -/

theorem dropShadow_find (up : Str) (dn : Option (Net → Net)) (name : Str) : ∀ n : Net, findCirc name (dropShadow up dn n) = findCirc name n := by
  intro n
  induction n with
  | nil => rfl
  | text r ih => exact ih
  | bad r ih => rfl
  | comp ref a r ih => unfold dropShadow; split_ifs <;> [rfl; exact ih]
  | inst ref a r ih => unfold dropShadow; split_ifs <;> [rfl; exact ih]
  | opened ref a nm b m r _ ih =>
    unfold dropShadow
    split_ifs
    · cases dn <;> rfl
    · exact ih
  | circ nm b r _ ih =>
    unfold dropShadow
    split_ifs
    · rfl
    · unfold findCirc; split_ifs <;> [rfl; exact ih]

theorem dropShadow_addrs (up : Str) (dn : Option (Net → Net)) (hd : ∀ k, dn = some k → ∀ b, (addrs (k b)).Sublist (addrs b) ∧ (Static b → Static (k b))) :
    ∀ n : Net, (addrs (dropShadow up dn n)).Sublist (addrs n) ∧ (Static n → Static (dropShadow up dn n)) := by
  intro n
  induction n with
  | nil => exact ⟨List.Sublist.refl _, id⟩
  | text r ih => exact ih
  | bad r ih => exact ⟨List.Sublist.refl _, id⟩
  | comp ref a r ih =>
    unfold dropShadow
    split_ifs
    · exact ⟨List.Sublist.refl _, id⟩
    · exact ⟨ih.1.cons₂ a, ih.2⟩
  | inst ref a r ih =>
    unfold dropShadow
    split_ifs
    · exact ⟨List.Sublist.refl _, id⟩
    · exact ⟨ih.1.cons₂ a, ih.2⟩
  | opened ref a nm b m r _ ih =>
    unfold dropShadow
    split_ifs
    · cases dn with
      | none => exact ⟨(List.sublist_append_right _ _).cons₂ a, fun h => h.2⟩
      | some k => exact ⟨((hd k rfl b).1.append (List.Sublist.refl _)).cons₂ a, fun h => ⟨(hd k rfl b).2 h.1, h.2⟩⟩
    · exact ⟨((List.Sublist.refl _).append ih.1).cons₂ a, fun h => ⟨h.1, ih.2 h.2⟩⟩
  | circ nm b r _ ih =>
    unfold dropShadow
    split_ifs
    · exact ⟨List.Sublist.refl _, id⟩
    · exact ⟨(List.Sublist.refl _).append ih.1, fun h => ⟨h.1, ih.2 h.2⟩⟩

theorem dropAt_addrs : ∀ (p : List Str) (n : Net), (addrs (dropAt p n)).Sublist (addrs n) ∧ (Static n → Static (dropAt p n)) := by
  intro p
  induction p with
  | nil => intro n; exact ⟨List.Sublist.refl _, id⟩
  | cons r p ih =>
    intro n
    cases p with
    | nil => exact dropShadow_addrs r none (by simp) n
    | cons r2 p => exact dropShadow_addrs r _ (by intro k hk; cases hk; exact ih) n

theorem dropShadow_look (numeric : Str → Bool) (v : Nat → Str) (up up' : Str) (dn : Option (Net → Net)) (d : Option (List Net → Net → Option Str)) (S S' : List Net)
    (hd : DRel v v d d) (hS : SSim v v S' S) (hk : up' = up → d = none ∨ ∃ k k', dn = some k ∧ d = some k' ∧ ∀ b, k' S' (k b) = k' S b) :
    ∀ n : Net, look numeric v up' d S' (dropShadow up dn n) = look numeric v up' d S n := by
  intro n
  have hr : ∀ m : Net, look numeric v up' d S' m = look numeric v up' d S m := fun m =>
    look_congr numeric v v up' d d hd hS (sim_of_agree v v m (fun _ _ => rfl))
  induction n with
  | nil => rfl
  | bad r ih => rfl
  | text r ih => exact ih
  | comp ref a r ih =>
    unfold dropShadow
    split_ifs
    · exact hr _
    · unfold look; split_ifs <;> [rfl; exact ih]
  | inst ref a r ih =>
    unfold dropShadow
    split_ifs
    · exact hr _
    · unfold look
      split_ifs
      · rcases hd with ⟨rfl, _⟩ | ⟨k, k', rfl, h', hkk⟩
        · rfl
        · cases h'
          simp only
          have hs2 := ssim_definition numeric _ _ (v a) hS
          cases h1 : definition numeric S' (v a) <;> cases h2 : definition numeric S (v a) <;> rw [h1, h2] at hs2
          · exact hs2.elim
          · exact hs2.elim
          · exact hkk _ _ _ _ hS hs2
      · exact ih
  | opened ref a nm b m r _ ih =>
    unfold dropShadow
    by_cases hm : sameRef ref up = true
    · rw [if_pos hm]
      cases dn with
      | none =>
        simp only
        unfold look
        by_cases hm' : sameRef ref up' = true
        · rw [if_pos hm', if_pos hm']
          rcases hk (sameRef_eq hm' hm) with rfl | ⟨k, _, h0, _⟩
          · rfl
          · cases h0
        · rw [if_neg hm', if_neg hm']; exact hr r
      | some k =>
        simp only
        unfold look
        by_cases hm' : sameRef ref up' = true
        · rw [if_pos hm', if_pos hm']
          rcases hk (sameRef_eq hm' hm) with rfl | ⟨k1, k', h0, rfl, h1⟩
          · rfl
          · cases h0; exact h1 b
        · rw [if_neg hm', if_neg hm']; exact hr r
    · rw [if_neg hm]
      unfold look
      split_ifs
      · rcases hd with ⟨rfl, _⟩ | ⟨k, k', rfl, h', hkk⟩
        · rfl
        · cases h'; exact hkk _ _ _ _ hS (sim_of_agree v v b (fun _ _ => rfl))
      · exact ih
  | circ nm b r _ ih =>
    unfold dropShadow
    split_ifs
    · exact hr _
    · unfold look; split_ifs <;> [rfl; exact ih]

theorem ssim_drop (v : Nat → Str) (p : List Str) (n : Net) {sc' sc : List Net} (hS : SSim v v sc' sc) : SSim v v (dropAt p n :: sc') (n :: sc) := by
  refine .cons ?_ hS
  intro name
  have : findCirc name (dropAt p n) = findCirc name n := by
    cases p with
    | nil => rfl
    | cons r p =>
      cases p with
      | nil => exact dropShadow_find r none name n
      | cons r2 p => exact dropShadow_find r _ name n
  rw [this]
  cases hf : findCirc name n with
  | none => trivial
  | some b => exact sim_of_agree v v b (fun _ _ => rfl)

/-- Dropping the copy of the instance at `p` changes only what is seen below `p`. -/
theorem peek_drop (numeric : Str → Bool) (v : Nat → Str) : ∀ (p q : List Str) (sc' sc : List Net) (n : Net), SSim v v sc' sc → (p <+: q → q = p) →
    peek numeric v q sc' (dropAt p n) = peek numeric v q sc n := by
  intro p
  induction p with
  | nil =>
    intro q sc' sc n hS h
    have := h List.nil_prefix
    subst this
    rfl
  | cons r p ih =>
    intro q sc' sc n hS h
    have hS2 := ssim_drop v (r :: p) n hS
    cases q with
    | nil => rfl
    | cons r' q =>
      have hq : r' = r → (p <+: q → q = p) := by
        rintro rfl hp
        have := h (by simpa using hp)
        simpa using this
      cases q with
      | nil =>
        cases p with
        | nil => exact dropShadow_look numeric v r r' none none _ _ (drel_none v v) hS2 (fun _ => Or.inl rfl) n
        | cons r2 p => exact dropShadow_look numeric v r r' _ none _ _ (drel_none v v) hS2 (fun _ => Or.inl rfl) n
      | cons q2 q =>
        unfold peek
        split_ifs
        · cases p with
          | nil =>
            refine dropShadow_look numeric v r r' none _ _ _ (drel_peek numeric v v (q2 :: q)) hS2 (fun e => ?_) n
            have := hq e List.nil_prefix
            cases this
          | cons r2 p =>
            refine dropShadow_look numeric v r r' _ _ _ _ (drel_peek numeric v v (q2 :: q)) hS2 (fun e => Or.inr ⟨_, _, rfl, rfl, fun b => ?_⟩) n
            exact ih (q2 :: q) _ _ b hS2 (hq e)
        · rfl

end Lemmas.Hier
