import Verif.Lemmas.Hier4
namespace Lemmas.Hier
open Model.PyStr Model.Hier Spec.Hier
open Model.Netlist (Str)

/-! ### The target of a path after its copy was dropped -/

theorem dropW_last (up : Str) (dp : Option (Net → Option (List Nat))) (dn : Option (Net → Net))
    (hd : (dp = none ∧ dn = none) ∨ ∃ k k', dp = some k ∧ dn = some k' ∧ (∀ b W, k b = some W → W ≠ [] ∧ W.Sublist (addrs b)) ∧
      ∀ b W, k b = some W → (addrs b).Nodup → ∀ c ∈ copies (k' b), W.getLast? ≠ some c.a) (hsub : ∀ k', dn = some k' → ∀ b, ∀ c ∈ copies (k' b), c.a ∈ addrs b) :
    ∀ (n : Net) (W : List Nat), routeW up dp n = some W → (addrs n).Nodup → ∀ c ∈ copies (dropShadow up dn n), W.getLast? ≠ some c.a := by
  have hs2 : ∀ k, dp = some k → ∀ b W, k b = some W → W.Sublist (addrs b) := by
    intro k hk b W hb
    rcases hd with ⟨rfl, _⟩ | ⟨k1, k', rfl, rfl, h1, _⟩
    · cases hk
    · cases hk; exact (h1 b W hb).2
  intro n
  induction n with
  | nil => intro W h; simp [routeW] at h
  | bad r ih => intro W h; simp [routeW] at h
  | text r ih => exact ih
  | comp ref a r ih =>
    intro W h hnd c hc
    have hnd2 := List.nodup_cons.1 hnd
    unfold routeW at h
    unfold dropShadow at hc
    by_cases hm : sameRef ref up = true
    · rw [if_pos hm] at h hc
      rcases hd with ⟨rfl, rfl⟩ | ⟨k, k', rfl, rfl, h1, h2⟩
      · cases h
        intro e
        simp only [List.getLast?_singleton, Option.some.injEq] at e
        exact hnd2.1 (e ▸ copies_addrs r c hc)
      · cases h
    · rw [if_neg hm] at h hc
      exact ih W h hnd2.2 c hc
  | inst ref a r ih =>
    intro W h hnd c hc
    have hnd2 := List.nodup_cons.1 hnd
    unfold routeW at h
    unfold dropShadow at hc
    by_cases hm : sameRef ref up = true
    · rw [if_pos hm] at h hc
      rcases hd with ⟨rfl, rfl⟩ | ⟨k, k', rfl, rfl, h1, h2⟩
      · cases h
        intro e
        simp only [List.getLast?_singleton, Option.some.injEq] at e
        exact hnd2.1 (e ▸ copies_addrs r c hc)
      · cases h
    · rw [if_neg hm] at h hc
      exact ih W h hnd2.2 c hc
  | opened ref a nm b m r _ ih =>
    intro W h hnd c hc
    have hnd2 := List.nodup_cons.1 hnd
    have hnd3 := List.nodup_append.1 hnd2.2
    unfold routeW at h
    unfold dropShadow at hc
    by_cases hm : sameRef ref up = true
    · rw [if_pos hm] at h hc
      rcases hd with ⟨rfl, rfl⟩ | ⟨k, k', rfl, rfl, h1, h2⟩
      · cases h
        intro e
        simp only [List.getLast?_singleton, Option.some.injEq] at e
        exact hnd2.1 (List.mem_append.2 (Or.inr (e ▸ copies_addrs r c hc)))
      · simp only at h hc
        cases hkb : k b with
        | none => rw [hkb] at h; cases h
        | some W' =>
          rw [hkb] at h; cases h
          obtain ⟨g1, g2⟩ := h1 b W' hkb
          intro e
          have e2 : W'.getLast? = some c.a := by
            cases W' with
            | nil => exact (g1 rfl).elim
            | cons w ws => exact e
          have hcW : c.a ∈ addrs b := g2.subset (List.mem_of_getLast? e2)
          simp only [copies, List.mem_cons, List.mem_append] at hc
          rcases hc with rfl | hc | hc
          · exact hnd2.1 (List.mem_append.2 (Or.inl hcW))
          · exact h2 b W' hkb hnd3.1 c hc e2
          · exact hnd3.2.2 _ hcW _ (copies_addrs r c hc) rfl
    · rw [if_neg hm] at h hc
      have hW := (routeW_sub up dp hs2 r W h).subset
      simp only [copies, List.mem_cons, List.mem_append] at hc
      rcases hc with rfl | hc | hc
      · exact fun e => hnd2.1 (List.mem_append.2 (Or.inr (hW (List.mem_of_getLast? e))))
      · exact fun e => hnd3.2.2 _ (copies_addrs b c hc) _ (hW (List.mem_of_getLast? e)) rfl
      · exact ih W h hnd3.2.1 c hc
  | circ nm b r _ ih =>
    intro W h hnd c hc
    have hnd3 := List.nodup_append.1 hnd
    unfold routeW at h
    unfold dropShadow at hc
    by_cases hm : sameRef nm up = true
    · rw [if_pos hm] at h; cases h
    · rw [if_neg hm] at h hc
      exact ih W h hnd3.2.1 c hc

theorem drop_last : ∀ (p : List Str) (n : Net) (W : List Nat), route p n = some W → (addrs n).Nodup → ∀ c ∈ copies (dropAt p n), W.getLast? ≠ some c.a := by
  intro p
  induction p with
  | nil => intro n W h; simp [route] at h
  | cons r p ih =>
    intro n W h hnd
    cases p with
    | nil => exact dropW_last r none none (Or.inl ⟨rfl, rfl⟩) (by simp) n W h hnd
    | cons r2 p =>
      unfold route at h
      split_ifs at h
      exact dropW_last r _ _ (Or.inr ⟨_, _, rfl, rfl, fun b W' hb => ⟨(peek_route (fun _ => false) (fun _ => []) _ [] b W' hb).1, route_sub _ b W' hb⟩, ih⟩)
        (by intro k' hk; cases hk; exact fun b c hc => copies_addrs b c (copies_drop (r2 :: p) b c hc)) n W h hnd

theorem walk_notinst (numeric : Str → Bool) (mark : Bool) (up : Str) (down : Option (List Net → Net → Store → Except LErr Found)) (dn : Option (Net → Net)) (sc : List Net)
    (hd : (down = none ∧ dn = none) ∨ ∃ k k', down = some k ∧ dn = some k' ∧ ∀ b s f, k sc b s = .ok f → f.isInst = false → k' f.net = f.net) :
    ∀ (n : Net) (s : Store) (f : Found), walk numeric mark up down sc n s = .ok f → f.isInst = false → dropShadow up dn f.net = f.net := by
  intro n
  induction n with
  | nil => intro s f h; simp [walk] at h
  | bad r ih => intro s f h; simp [walk] at h
  | text r ih =>
    intro s f h hi
    unfold walk at h
    cases hw : walk numeric mark up down sc r s with
    | error e => rw [hw] at h; cases h
    | ok g => rw [hw] at h; cases h; simp only [dropShadow]; rw [ih s g hw hi]
  | comp ref a r ih =>
    intro s f h hi
    unfold walk at h
    by_cases hm : sameRef ref up = true
    · rw [if_pos hm] at h
      rcases hd with ⟨rfl, rfl⟩ | ⟨k, k', rfl, rfl, _⟩
      · cases h; simp only [dropShadow, hm, if_true]
      · cases h
    · rw [if_neg hm] at h
      cases hw : walk numeric mark up down sc r s with
      | error e => rw [hw] at h; cases h
      | ok g => rw [hw] at h; cases h; simp only [dropShadow]; rw [if_neg hm, ih s g hw hi]
  | inst ref a r ih =>
    intro s f h hi
    unfold walk at h
    by_cases hm : sameRef ref up = true
    · rw [if_pos hm] at h
      rcases hd with ⟨rfl, rfl⟩ | ⟨k, k', rfl, rfl, hk⟩
      · cases h; simp only [dropShadow, hm, if_true]
      · simp only at h
        cases hdef : definition numeric sc (s.vals a) with
        | none => rw [hdef] at h; cases h
        | some b =>
          rw [hdef] at h
          simp only [clone] at h
          cases hk1 : k sc (.text (cloneBody b s).1) (cloneBody b s).2 with
          | error e => rw [hk1] at h; cases h
          | ok g =>
            rw [hk1] at h
            cases h
            simp only [dropShadow, hm, if_true]
            rw [hk _ _ g hk1 hi]
    · rw [if_neg hm] at h
      cases hw : walk numeric mark up down sc r s with
      | error e => rw [hw] at h; cases h
      | ok g => rw [hw] at h; cases h; simp only [dropShadow]; rw [if_neg hm, ih s g hw hi]
  | opened ref a nm b m r _ ih =>
    intro s f h hi
    unfold walk at h
    by_cases hm : sameRef ref up = true
    · rw [if_pos hm] at h
      rcases hd with ⟨rfl, rfl⟩ | ⟨k, k', rfl, rfl, hk⟩
      · cases h; cases hi
      · simp only at h
        cases hk1 : k sc b s with
        | error e => rw [hk1] at h; cases h
        | ok g =>
          rw [hk1] at h
          cases h
          simp only [dropShadow, hm, if_true]
          rw [hk _ _ g hk1 hi]
    · rw [if_neg hm] at h
      cases hw : walk numeric mark up down sc r s with
      | error e => rw [hw] at h; cases h
      | ok g => rw [hw] at h; cases h; simp only [dropShadow]; rw [if_neg hm, ih s g hw hi]
  | circ nm b r _ ih =>
    intro s f h hi
    unfold walk at h
    by_cases hm : sameRef nm up = true
    · rw [if_pos hm] at h; cases h
    · rw [if_neg hm] at h
      cases hw : walk numeric mark up down sc r s with
      | error e => rw [hw] at h; cases h
      | ok g => rw [hw] at h; cases h; simp only [dropShadow]; rw [if_neg hm, ih s g hw hi]

theorem locate_notinst (numeric : Str → Bool) (mark : Bool) : ∀ (p : List Str) (sc : List Net) (n : Net) (s : Store) (f : Found),
    locate numeric mark p sc n s = .ok f → f.isInst = false → dropAt p f.net = f.net := by
  intro p
  induction p with
  | nil => intro sc n s f h; simp [locate] at h
  | cons r p ih =>
    intro sc n s f h hi
    cases p with
    | nil => exact walk_notinst numeric mark r none none (n :: sc) (Or.inl ⟨rfl, rfl⟩) n s f h hi
    | cons r2 p =>
      unfold locate at h
      split_ifs at h
      exact walk_notinst numeric mark r _ _ (n :: sc) (Or.inr ⟨_, _, rfl, rfl, fun b s f h1 h2 => ih (n :: sc) b s f h1 h2⟩) n s f h hi

/-! ### References on the way -/

theorem walk_refs (numeric : Str → Bool) (mark : Bool) (up : Str) (down : Option (List Net → Net → Store → Except LErr Found)) (sc : List Net) (p : List Str)
    (hd : (down = none ∧ p = []) ∨ ∃ k, down = some k ∧ ∀ b s f, k sc b s = .ok f → f.via.map (fun x => upper x.ref) ++ [upper f.ref] = p) :
    ∀ (n : Net) (s : Store) (f : Found), walk numeric mark up down sc n s = .ok f → f.via.map (fun x => upper x.ref) ++ [upper f.ref] = up :: p := by
  have hsr : ∀ {ref : Str}, sameRef ref up = true → upper ref = up := fun h => of_decide_eq_true h
  intro n
  induction n with
  | nil => intro s f h; simp [walk] at h
  | bad r ih => intro s f h; simp [walk] at h
  | text r ih =>
    intro s f h
    unfold walk at h
    cases hw : walk numeric mark up down sc r s with
    | error e => rw [hw] at h; cases h
    | ok g => rw [hw] at h; cases h; exact ih s g hw
  | comp ref a r ih =>
    intro s f h
    unfold walk at h
    by_cases hm : sameRef ref up = true
    · rw [if_pos hm] at h
      rcases hd with ⟨rfl, rfl⟩ | ⟨k, rfl, _⟩
      · cases h; simp [hsr hm]
      · cases h
    · rw [if_neg hm] at h
      cases hw : walk numeric mark up down sc r s with
      | error e => rw [hw] at h; cases h
      | ok g => rw [hw] at h; cases h; exact ih s g hw
  | inst ref a r ih =>
    intro s f h
    unfold walk at h
    by_cases hm : sameRef ref up = true
    · rw [if_pos hm] at h
      rcases hd with ⟨rfl, rfl⟩ | ⟨k, rfl, hk⟩
      · cases h; simp [hsr hm]
      · simp only at h
        cases hdef : definition numeric sc (s.vals a) with
        | none => rw [hdef] at h; cases h
        | some b =>
          rw [hdef] at h
          simp only [clone] at h
          cases hk1 : k sc (.text (cloneBody b s).1) (cloneBody b s).2 with
          | error e => rw [hk1] at h; cases h
          | ok g =>
            rw [hk1] at h
            cases h
            simp only [List.map_cons, List.cons_append, hsr hm]
            rw [hk _ _ g hk1]
    · rw [if_neg hm] at h
      cases hw : walk numeric mark up down sc r s with
      | error e => rw [hw] at h; cases h
      | ok g => rw [hw] at h; cases h; exact ih s g hw
  | opened ref a nm b m r _ ih =>
    intro s f h
    unfold walk at h
    by_cases hm : sameRef ref up = true
    · rw [if_pos hm] at h
      rcases hd with ⟨rfl, rfl⟩ | ⟨k, rfl, hk⟩
      · cases h; simp [hsr hm]
      · simp only at h
        cases hk1 : k sc b s with
        | error e => rw [hk1] at h; cases h
        | ok g =>
          rw [hk1] at h
          cases h
          simp only [List.map_cons, List.cons_append, hsr hm]
          rw [hk _ _ g hk1]
    · rw [if_neg hm] at h
      cases hw : walk numeric mark up down sc r s with
      | error e => rw [hw] at h; cases h
      | ok g => rw [hw] at h; cases h; exact ih s g hw
  | circ nm b r _ ih =>
    intro s f h
    unfold walk at h
    by_cases hm : sameRef nm up = true
    · rw [if_pos hm] at h; cases h
    · rw [if_neg hm] at h
      cases hw : walk numeric mark up down sc r s with
      | error e => rw [hw] at h; cases h
      | ok g => rw [hw] at h; cases h; exact ih s g hw

theorem locate_refs (numeric : Str → Bool) (mark : Bool) : ∀ (p : List Str) (sc : List Net) (n : Net) (s : Store) (f : Found),
    locate numeric mark p sc n s = .ok f → f.via.map (fun x => upper x.ref) ++ [upper f.ref] = p := by
  intro p
  induction p with
  | nil => intro sc n s f h; simp [locate] at h
  | cons r p ih =>
    intro sc n s f h
    cases p with
    | nil => exact walk_refs numeric mark r none (n :: sc) [] (Or.inl ⟨rfl, rfl⟩) n s f h
    | cons r2 p =>
      unfold locate at h
      split_ifs at h
      exact walk_refs numeric mark r _ (n :: sc) (r2 :: p) (Or.inr ⟨_, rfl, fun b s f h1 => ih (n :: sc) b s f h1⟩) n s f h

/-! ### Instances on the way -/

theorem routeW_none (up : Str) (dp : Option (Net → Option (List Nat))) (hd : ∀ k, dp = some k → ∀ b W, k b = some W → W ≠ []) :
    ∀ (n : Net) (W : List Nat), routeW up dp n = some W → ∃ w, W.head? = some w ∧ routeW up none n = some [w] := by
  intro n
  induction n with
  | nil => intro W h; simp [routeW] at h
  | bad r ih => intro W h; simp [routeW] at h
  | text r ih => exact ih
  | comp ref a r ih =>
    intro W h
    unfold routeW at h ⊢
    by_cases hm : sameRef ref up = true
    · rw [if_pos hm] at h; rw [if_pos hm]
      cases dp with
      | none => cases h; exact ⟨a, rfl, rfl⟩
      | some k => cases h
    · rw [if_neg hm] at h; rw [if_neg hm]; exact ih W h
  | inst ref a r ih =>
    intro W h
    unfold routeW at h ⊢
    by_cases hm : sameRef ref up = true
    · rw [if_pos hm] at h; rw [if_pos hm]
      cases dp with
      | none => cases h; exact ⟨a, rfl, rfl⟩
      | some k => cases h
    · rw [if_neg hm] at h; rw [if_neg hm]; exact ih W h
  | opened ref a nm b m r _ ih =>
    intro W h
    unfold routeW at h ⊢
    by_cases hm : sameRef ref up = true
    · rw [if_pos hm] at h; rw [if_pos hm]
      cases dp with
      | none => cases h; exact ⟨a, rfl, rfl⟩
      | some k =>
        simp only at h
        cases hk : k b with
        | none => rw [hk] at h; cases h
        | some W' => rw [hk] at h; cases h; exact ⟨a, rfl, rfl⟩
    · rw [if_neg hm] at h; rw [if_neg hm]; exact ih W h
  | circ nm b r _ ih =>
    intro W h
    unfold routeW at h ⊢
    by_cases hm : sameRef nm up = true
    · rw [if_pos hm] at h; cases h
    · rw [if_neg hm] at h; rw [if_neg hm]; exact ih W h

theorem routeW_map (up : Str) (dp dp' : Net → Option (List Nat)) (g : List Nat → List Nat) (hd : ∀ b W, dp b = some W → dp' b = some (g W)) :
    ∀ (n : Net) (W : List Nat), routeW up (some dp) n = some W → ∃ w W', W = w :: W' ∧ routeW up (some dp') n = some (w :: g W') := by
  intro n
  induction n with
  | nil => intro W h; simp [routeW] at h
  | bad r ih => intro W h; simp [routeW] at h
  | text r ih => exact ih
  | comp ref a r ih =>
    intro W h
    unfold routeW at h ⊢
    by_cases hm : sameRef ref up = true
    · rw [if_pos hm] at h; cases h
    · rw [if_neg hm] at h; rw [if_neg hm]; exact ih W h
  | inst ref a r ih =>
    intro W h
    unfold routeW at h ⊢
    by_cases hm : sameRef ref up = true
    · rw [if_pos hm] at h; cases h
    · rw [if_neg hm] at h; rw [if_neg hm]; exact ih W h
  | opened ref a nm b m r _ ih =>
    intro W h
    unfold routeW at h ⊢
    by_cases hm : sameRef ref up = true
    · rw [if_pos hm] at h; rw [if_pos hm]
      simp only at h ⊢
      cases hk : dp b with
      | none => rw [hk] at h; cases h
      | some W' => rw [hk] at h; cases h; exact ⟨a, W', rfl, by rw [hd b W' hk]; rfl⟩
    · rw [if_neg hm] at h; rw [if_neg hm]; exact ih W h
  | circ nm b r _ ih =>
    intro W h
    unfold routeW at h ⊢
    by_cases hm : sameRef nm up = true
    · rw [if_pos hm] at h; cases h
    · rw [if_neg hm] at h; rw [if_neg hm]; exact ih W h

theorem route_ne (p : List Str) (n : Net) (W : List Nat) (h : route p n = some W) : W ≠ [] := (peek_route (fun _ => false) (fun _ => []) p [] n W h).1

/-- The cells on the way to an instance on the way. -/
theorem route_take : ∀ (p : List Str) (n : Net) (W : List Nat) (k : Nat), k < p.length → route p n = some W → route (p.take (k + 1)) n = some (W.take (k + 1)) := by
  intro p
  induction p with
  | nil => intro n W k _ h; simp [route] at h
  | cons r p ih =>
    intro n W k hk h
    cases p with
    | nil =>
      simp only [List.length_singleton] at hk
      have : k = 0 := by omega
      subst this
      have h2 := h
      unfold route at h2
      obtain ⟨w, h1, h3⟩ := routeW_none r none (by simp) n W h2
      rw [h2] at h3
      cases h3
      exact h2
    | cons r2 p =>
      unfold route at h
      split_ifs at h with hx
      cases k with
      | zero =>
        obtain ⟨w, h1, h2⟩ := routeW_none r _ (by intro k hk b W hb; cases hk; exact route_ne _ b W hb) n W h
        cases W with
        | nil => cases h1
        | cons w' W => cases h1; exact h2
      | succ k =>
        have hk2 : k < (r2 :: p).length := by simpa using hk
        obtain ⟨w, W', rfl, h2⟩ := routeW_map r (route (r2 :: p)) (route ((r2 :: p).take (k + 1))) (List.take (k + 1)) (fun b W hb => ih b W k hk2 hb) n W h
        rw [List.take_succ_cons, List.take_succ_cons, List.take_succ_cons]
        unfold route
        rw [if_pos hx]
        rw [List.take_succ_cons] at h2
        exact h2

end Lemmas.Hier
