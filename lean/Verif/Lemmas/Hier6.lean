import Verif.Lemmas.Hier5
namespace Lemmas.Hier
open Model.PyStr Model.Hier Spec.Hier
open Model.Netlist (Str)

/-- The element at the end of a path is an instance with a modified copy. -/
def markW (up : Str) (down : Option (Net → Bool)) : Net → Bool
  | .nil => false
  | .text r => markW up down r
  | .bad _ => false
  | .comp ref _ r => if sameRef ref up then false else markW up down r
  | .inst ref _ r => if sameRef ref up then false else markW up down r
  | .opened ref _ _ b m r => if sameRef ref up then (match down with | none => m | some k => k b) else markW up down r
  | .circ name _ r => if sameRef name up then false else markW up down r

def markedAt : List Str → Net → Bool
  | [] => fun _ => false
  | [r] => markW r none
  | r :: p => markW r (some (markedAt p))

theorem walk_mark_mono (numeric : Str → Bool) (mark : Bool) (up : Str) (down : Option (List Net → Net → Store → Except LErr Found)) (sc : List Net)
    (up' : Str) (dm : Option (Net → Bool)) (hd : ∀ k, down = some k → ∀ km, dm = some km → ∀ b s f, k sc b s = .ok f → km b = true → km f.net = true) :
    ∀ (n : Net) (s : Store) (f : Found), walk numeric mark up down sc n s = .ok f → markW up' dm n = true → markW up' dm f.net = true := by
  intro n
  induction n with
  | nil => intro s f h; simp [walk] at h
  | bad r ih => intro s f h; simp [walk] at h
  | text r ih =>
    intro s f h hm
    unfold walk at h
    cases hw : walk numeric mark up down sc r s with
    | error e => rw [hw] at h; cases h
    | ok g => rw [hw] at h; cases h; exact ih s g hw hm
  | comp ref a r ih =>
    intro s f h hk
    unfold walk at h
    by_cases hm : sameRef ref up = true
    · rw [if_pos hm] at h
      cases down with
      | none => cases h; exact hk
      | some k => cases h
    · rw [if_neg hm] at h
      cases hw : walk numeric mark up down sc r s with
      | error e => rw [hw] at h; cases h
      | ok g =>
        rw [hw] at h; cases h
        unfold markW at hk ⊢
        by_cases hm' : sameRef ref up' = true
        · rw [if_pos hm'] at hk; cases hk
        · rw [if_neg hm'] at hk; rw [if_neg hm']; exact ih s g hw hk
  | inst ref a r ih =>
    intro s f h hk
    unfold walk at h
    by_cases hm : sameRef ref up = true
    · rw [if_pos hm] at h
      cases down with
      | none => cases h; exact hk
      | some k =>
        simp only at h
        cases hdef : definition numeric sc (s.vals a) with
        | none => rw [hdef] at h; cases h
        | some b =>
          rw [hdef] at h
          simp only [clone] at h
          cases hk1 : k sc (.text (cloneBody b s).1) (cloneBody b s).2 with
          | error e => rw [hk1] at h; cases h
          | ok g =>
            rw [hk1] at h
            cases h
            unfold markW at hk ⊢
            by_cases hm' : sameRef ref up' = true
            · rw [if_pos hm'] at hk; cases hk
            · rw [if_neg hm'] at hk; rw [if_neg hm']; exact hk
    · rw [if_neg hm] at h
      cases hw : walk numeric mark up down sc r s with
      | error e => rw [hw] at h; cases h
      | ok g =>
        rw [hw] at h; cases h
        unfold markW at hk ⊢
        by_cases hm' : sameRef ref up' = true
        · rw [if_pos hm'] at hk; cases hk
        · rw [if_neg hm'] at hk; rw [if_neg hm']; exact ih s g hw hk
  | opened ref a nm b m r _ ih =>
    intro s f h hk
    unfold walk at h
    by_cases hm : sameRef ref up = true
    · rw [if_pos hm] at h
      cases down with
      | none => cases h; exact hk
      | some k =>
        simp only at h
        cases hk1 : k sc b s with
        | error e => rw [hk1] at h; cases h
        | ok g =>
          rw [hk1] at h
          cases h
          unfold markW at hk ⊢
          by_cases hm' : sameRef ref up' = true
          · rw [if_pos hm'] at hk; rw [if_pos hm']
            cases dm with
            | none => simp only at hk ⊢; simp [hk]
            | some km => exact hd k rfl km rfl b s g hk1 hk
          · rw [if_neg hm'] at hk; rw [if_neg hm']; exact hk
    · rw [if_neg hm] at h
      cases hw : walk numeric mark up down sc r s with
      | error e => rw [hw] at h; cases h
      | ok g =>
        rw [hw] at h; cases h
        unfold markW at hk ⊢
        by_cases hm' : sameRef ref up' = true
        · rw [if_pos hm'] at hk; rw [if_pos hm']; exact hk
        · rw [if_neg hm'] at hk; rw [if_neg hm']; exact ih s g hw hk
  | circ nm b r _ ih =>
    intro s f h hk
    unfold walk at h
    by_cases hm : sameRef nm up = true
    · rw [if_pos hm] at h; cases h
    · rw [if_neg hm] at h
      cases hw : walk numeric mark up down sc r s with
      | error e => rw [hw] at h; cases h
      | ok g =>
        rw [hw] at h; cases h
        unfold markW at hk ⊢
        by_cases hm' : sameRef nm up' = true
        · rw [if_pos hm'] at hk; cases hk
        · rw [if_neg hm'] at hk; rw [if_neg hm']; exact ih s g hw hk

theorem locate_mark_mono (numeric : Str → Bool) (mark : Bool) : ∀ (p q : List Str) (sc : List Net) (n : Net) (s : Store) (f : Found),
    locate numeric mark p sc n s = .ok f → markedAt q n = true → markedAt q f.net = true := by
  intro p
  induction p with
  | nil => intro q sc n s f h; simp [locate] at h
  | cons r p ih =>
    intro q sc n s f h hm
    have key : ∀ (r' : Str) (dm : Option (Net → Bool)), (dm = none ∨ ∃ q', dm = some (markedAt q')) → markW r' dm n = true → markW r' dm f.net = true := by
      intro r' dm hdm hk
      cases p with
      | nil => exact walk_mark_mono numeric mark r none (n :: sc) r' dm (by simp) n s f h hk
      | cons r2 p =>
        unfold locate at h
        split_ifs at h
        refine walk_mark_mono numeric mark r _ (n :: sc) r' dm ?_ n s f h hk
        intro k hk km hkm b s f h1 h2
        cases hk
        rcases hdm with rfl | ⟨q', rfl⟩
        · cases hkm
        · cases hkm; exact ih q' _ b s f h1 h2
    cases q with
    | nil => simp [markedAt] at hm
    | cons r' q =>
      cases q with
      | nil => exact key r' none (Or.inl rfl) hm
      | cons q2 q => exact key r' _ (Or.inr ⟨_, rfl⟩) hm

theorem clone_pure : ∀ (n : Net) (s : Store), Pure (cloneBody n s).1 := by
  intro n
  induction n with
  | nil => intro s; trivial
  | text r ih => intro s; exact ih s
  | bad r ih => intro s; exact ih s
  | comp ref a r ih => intro s; exact ih _
  | inst ref a r ih => intro s; exact ih _
  | opened ref a nm b m r _ ih => intro s; exact ih _
  | circ nm b r ihb ih => intro s; exact ⟨ihb s, ih _⟩

theorem markW_pure (up : Str) (dm : Option (Net → Bool)) : ∀ n : Net, Pure n → markW up dm n = false := by
  intro n
  induction n with
  | nil => intro _; rfl
  | text r ih => exact ih
  | bad r ih => intro _; rfl
  | comp ref a r ih => intro h; unfold markW; split_ifs <;> [rfl; exact ih h]
  | inst ref a r ih => intro h; unfold markW; split_ifs <;> [rfl; exact ih h]
  | opened => intro h; exact h.elim
  | circ nm b r _ ih => intro h; unfold markW; split_ifs <;> [rfl; exact ih h.2]

theorem mark_pure (q : List Str) (n : Net) (h : Pure n) : markedAt q n = false := by
  cases q with
  | nil => rfl
  | cons r q =>
    cases q with
    | nil => exact markW_pure r none n h
    | cons r2 q => exact markW_pure r _ n h

theorem walk_mark_via (numeric : Str → Bool) (mark : Bool) (up : Str) (k : List Net → Net → Store → Except LErr Found) (sc : List Net) :
    ∀ (n : Net) (s : Store) (f : Found), walk numeric mark up (some k) sc n s = .ok f →
      ∃ x xs b t g, f.via = x :: xs ∧ k sc b t = .ok g ∧ g.via = xs ∧ markW up none n = x.modified ∧ markW up none f.net = (x.modified || mark) ∧
        (∀ km : Net → Bool, markW up (some km) f.net = km g.net) ∧ (∀ km : Net → Bool, (∀ c : Net, Pure c → km c = false) → markW up (some km) n = km b) := by
  intro n
  induction n with
  | nil => intro s f h; simp [walk] at h
  | bad r ih => intro s f h; simp [walk] at h
  | text r ih =>
    intro s f h
    unfold walk at h
    cases hw : walk numeric mark up (some k) sc r s with
    | error e => rw [hw] at h; cases h
    | ok g => rw [hw] at h; cases h; exact ih s g hw
  | comp ref a r ih =>
    intro s f h
    unfold walk at h
    by_cases hm : sameRef ref up = true
    · rw [if_pos hm] at h; cases h
    · rw [if_neg hm] at h
      cases hw : walk numeric mark up (some k) sc r s with
      | error e => rw [hw] at h; cases h
      | ok g =>
        rw [hw] at h; cases h
        simp only [markW, hm]
        exact ih s g hw
  | inst ref a r ih =>
    intro s f h
    unfold walk at h
    by_cases hm : sameRef ref up = true
    · rw [if_pos hm] at h
      simp only at h
      cases hdef : definition numeric sc (s.vals a) with
      | none => rw [hdef] at h; cases h
      | some b =>
        rw [hdef] at h
        simp only [clone] at h
        cases hk1 : k sc (.text (cloneBody b s).1) (cloneBody b s).2 with
        | error e => rw [hk1] at h; cases h
        | ok g =>
          rw [hk1] at h
          cases h
          refine ⟨_, _, _, _, g, rfl, hk1, rfl, ?_, ?_, ?_, ?_⟩
          · simp [markW, hm]
          · simp [markW, hm]
          · simp [markW, hm]
          · intro km hkm
            rw [hkm (.text (cloneBody b s).1) (clone_pure b s)]
            simp [markW, hm]
    · rw [if_neg hm] at h
      cases hw : walk numeric mark up (some k) sc r s with
      | error e => rw [hw] at h; cases h
      | ok g =>
        rw [hw] at h; cases h
        simp only [markW, hm]
        exact ih s g hw
  | opened ref a nm b m r _ ih =>
    intro s f h
    unfold walk at h
    by_cases hm : sameRef ref up = true
    · rw [if_pos hm] at h
      simp only at h
      cases hk1 : k sc b s with
      | error e => rw [hk1] at h; cases h
      | ok g =>
        rw [hk1] at h
        cases h
        refine ⟨_, _, _, _, g, rfl, hk1, rfl, ?_, ?_, ?_, ?_⟩ <;> simp [markW, hm]
    · rw [if_neg hm] at h
      cases hw : walk numeric mark up (some k) sc r s with
      | error e => rw [hw] at h; cases h
      | ok g =>
        rw [hw] at h; cases h
        simp only [markW, hm]
        exact ih s g hw
  | circ nm b r _ ih =>
    intro s f h
    unfold walk at h
    by_cases hm : sameRef nm up = true
    · rw [if_pos hm] at h; cases h
    · rw [if_neg hm] at h
      cases hw : walk numeric mark up (some k) sc r s with
      | error e => rw [hw] at h; cases h
      | ok g =>
        rw [hw] at h; cases h
        simp only [markW, hm]
        exact ih s g hw

theorem locate_mark_via (numeric : Str → Bool) (mark : Bool) : ∀ (p : List Str) (sc : List Net) (n : Net) (s : Store) (f : Found),
    locate numeric mark p sc n s = .ok f → ∀ (k : Nat) (x : Step), f.via[k]? = some x →
      markedAt (p.take (k + 1)) n = x.modified ∧ markedAt (p.take (k + 1)) f.net = (x.modified || mark) := by
  intro p
  induction p with
  | nil => intro sc n s f h; simp [locate] at h
  | cons r p ih =>
    intro sc n s f h k x hx
    cases p with
    | nil =>
      have := locate_refs numeric mark [r] sc n s f h
      have hl := congrArg List.length this
      simp at hl
      rw [hl] at hx
      simp at hx
    | cons r2 p =>
      have hv := locate_refs numeric mark (r :: r2 :: p) sc n s f h
      unfold locate at h
      split_ifs at h
      obtain ⟨y, ys, b, t, g, h1, h2, h3, h4, h5, h6, h7⟩ := walk_mark_via numeric mark r _ (n :: sc) n s f h
      rw [h1] at hx
      cases k with
      | zero =>
        simp only [List.getElem?_cons_zero, Option.some.injEq] at hx
        subst hx
        simp only [Nat.zero_add, List.take_succ_cons, List.take_zero, markedAt]
        exact ⟨h4, h5⟩
      | succ k =>
        simp only [List.getElem?_cons_succ] at hx
        subst h3
        have := ih (n :: sc) b t g h2 k x hx
        rw [List.take_succ_cons, List.take_succ_cons]
        rw [List.take_succ_cons] at this
        unfold markedAt
        exact ⟨by rw [h7 _ (fun c hc => mark_pure _ c hc)]; exact this.1, by rw [h6]; exact this.2⟩

theorem walk_mark_off (numeric : Str → Bool) (mark : Bool) (up : Str) (down : Option (List Net → Net → Store → Except LErr Found)) (sc : List Net)
    (up' : Str) (dm : Option (Net → Bool)) (hne : up' = up → down = none ∨ ∃ k km, down = some k ∧ dm = some km ∧ (∀ c : Net, Pure c → km c = false) ∧
      ∀ b s f, k sc b s = .ok f → km f.net = true → km b = true) :
    ∀ (n : Net) (s : Store) (f : Found), walk numeric mark up down sc n s = .ok f → markW up' dm f.net = true → markW up' dm n = true := by
  intro n
  induction n with
  | nil => intro s f h; simp [walk] at h
  | bad r ih => intro s f h; simp [walk] at h
  | text r ih =>
    intro s f h hm
    unfold walk at h
    cases hw : walk numeric mark up down sc r s with
    | error e => rw [hw] at h; cases h
    | ok g => rw [hw] at h; cases h; exact ih s g hw hm
  | comp ref a r ih =>
    intro s f h hk
    unfold walk at h
    by_cases hm : sameRef ref up = true
    · rw [if_pos hm] at h
      cases down with
      | none => cases h; exact hk
      | some k => cases h
    · rw [if_neg hm] at h
      cases hw : walk numeric mark up down sc r s with
      | error e => rw [hw] at h; cases h
      | ok g =>
        rw [hw] at h; cases h
        unfold markW at hk ⊢
        by_cases hm' : sameRef ref up' = true
        · rw [if_pos hm'] at hk; cases hk
        · rw [if_neg hm'] at hk; rw [if_neg hm']; exact ih s g hw hk
  | inst ref a r ih =>
    intro s f h hk
    unfold walk at h
    by_cases hm : sameRef ref up = true
    · rw [if_pos hm] at h
      cases down with
      | none => cases h; exact hk
      | some k =>
        simp only at h
        cases hdef : definition numeric sc (s.vals a) with
        | none => rw [hdef] at h; cases h
        | some b =>
          rw [hdef] at h
          simp only [clone] at h
          cases hk1 : k sc (.text (cloneBody b s).1) (cloneBody b s).2 with
          | error e => rw [hk1] at h; cases h
          | ok g =>
            rw [hk1] at h
            cases h
            unfold markW at hk ⊢
            by_cases hm' : sameRef ref up' = true
            · rw [if_pos hm'] at hk
              rcases hne (sameRef_eq hm' hm) with h0 | ⟨k0, km, h0, rfl, h1, h2⟩
              · cases h0
              · cases h0
                have := h2 _ _ g hk1 hk
                rw [h1 (.text (cloneBody b s).1) (clone_pure b s)] at this
                cases this
            · rw [if_neg hm'] at hk; rw [if_neg hm']; exact hk
    · rw [if_neg hm] at h
      cases hw : walk numeric mark up down sc r s with
      | error e => rw [hw] at h; cases h
      | ok g =>
        rw [hw] at h; cases h
        unfold markW at hk ⊢
        by_cases hm' : sameRef ref up' = true
        · rw [if_pos hm'] at hk; cases hk
        · rw [if_neg hm'] at hk; rw [if_neg hm']; exact ih s g hw hk
  | opened ref a nm b m r _ ih =>
    intro s f h hk
    unfold walk at h
    by_cases hm : sameRef ref up = true
    · rw [if_pos hm] at h
      cases down with
      | none => cases h; exact hk
      | some k =>
        simp only at h
        cases hk1 : k sc b s with
        | error e => rw [hk1] at h; cases h
        | ok g =>
          rw [hk1] at h
          cases h
          unfold markW at hk ⊢
          by_cases hm' : sameRef ref up' = true
          · rw [if_pos hm'] at hk; rw [if_pos hm']
            rcases hne (sameRef_eq hm' hm) with h0 | ⟨k0, km, h0, rfl, h1, h2⟩
            · cases h0
            · cases h0
              exact h2 _ _ g hk1 hk
          · rw [if_neg hm'] at hk; rw [if_neg hm']; exact hk
    · rw [if_neg hm] at h
      cases hw : walk numeric mark up down sc r s with
      | error e => rw [hw] at h; cases h
      | ok g =>
        rw [hw] at h; cases h
        unfold markW at hk ⊢
        by_cases hm' : sameRef ref up' = true
        · rw [if_pos hm'] at hk; rw [if_pos hm']; exact hk
        · rw [if_neg hm'] at hk; rw [if_neg hm']; exact ih s g hw hk
  | circ nm b r _ ih =>
    intro s f h hk
    unfold walk at h
    by_cases hm : sameRef nm up = true
    · rw [if_pos hm] at h; cases h
    · rw [if_neg hm] at h
      cases hw : walk numeric mark up down sc r s with
      | error e => rw [hw] at h; cases h
      | ok g =>
        rw [hw] at h; cases h
        unfold markW at hk ⊢
        by_cases hm' : sameRef nm up' = true
        · rw [if_pos hm'] at hk; cases hk
        · rw [if_neg hm'] at hk; rw [if_neg hm']; exact ih s g hw hk

/-- A look-up marks only the instances on its way. -/
theorem locate_mark_off (numeric : Str → Bool) (mark : Bool) : ∀ (p q : List Str) (sc : List Net) (n : Net) (s : Store) (f : Found),
    locate numeric mark p sc n s = .ok f → (q <+: p → q = p) → markedAt q f.net = true → markedAt q n = true := by
  intro p
  induction p with
  | nil => intro q sc n s f h; simp [locate] at h
  | cons r p ih =>
    intro q sc n s f h hq hm
    cases q with
    | nil => simp [markedAt] at hm
    | cons r' q =>
      have hq2 : r' = r → (q <+: p → q = p) := by
        rintro rfl hp
        have := hq (by simpa using hp)
        simpa using this
      cases p with
      | nil =>
        cases q with
        | nil => exact walk_mark_off numeric mark r none (n :: sc) r' none (fun _ => Or.inl rfl) n s f h hm
        | cons q2 q => exact walk_mark_off numeric mark r none (n :: sc) r' _ (fun _ => Or.inl rfl) n s f h hm
      | cons r2 p =>
        unfold locate at h
        split_ifs at h
        cases q with
        | nil =>
          refine walk_mark_off numeric mark r _ (n :: sc) r' none (fun e => ?_) n s f h hm
          have := hq2 e List.nil_prefix
          cases this
        | cons q2 q =>
          refine walk_mark_off numeric mark r _ (n :: sc) r' _ (fun e => Or.inr ⟨_, _, rfl, rfl, fun c hc => mark_pure _ c hc, ?_⟩) n s f h hm
          intro b s f h1 h2
          exact ih (q2 :: q) _ b s f h1 (hq2 e) h2

theorem dropShadow_unmark (up up' : Str) (dn : Option (Net → Net)) (dm : Option (Net → Bool))
    (hk : up' = up → ∀ k, dn = some k → ∀ km, dm = some km → ∀ b, km (k b) = true → km b = true) :
    ∀ n : Net, markW up' dm (dropShadow up dn n) = true → markW up' dm n = true := by
  intro n
  induction n with
  | nil => exact id
  | bad r ih => exact id
  | text r ih => exact ih
  | comp ref a r ih =>
    intro h
    unfold dropShadow at h
    split_ifs at h
    · exact h
    · unfold markW at h ⊢; split_ifs at h ⊢; exact ih h
  | inst ref a r ih =>
    intro h
    unfold dropShadow at h
    split_ifs at h
    · exact h
    · unfold markW at h ⊢; split_ifs at h ⊢; exact ih h
  | opened ref a nm b m r _ ih =>
    intro h
    unfold dropShadow at h
    by_cases hm : sameRef ref up = true
    · rw [if_pos hm] at h
      unfold markW
      by_cases hm' : sameRef ref up' = true
      · rw [if_pos hm']
        cases dn with
        | none => simp [markW, hm'] at h
        | some k =>
          simp only at h
          unfold markW at h
          rw [if_pos hm'] at h
          cases dm with
          | none => exact h
          | some km => exact hk (sameRef_eq hm' hm) k rfl km rfl b h
      · rw [if_neg hm']
        cases dn <;> (simp only at h; unfold markW at h; rw [if_neg hm'] at h; exact h)
    · rw [if_neg hm] at h
      unfold markW at h ⊢
      split_ifs at h ⊢
      · exact h
      · exact ih h
  | circ nm b r _ ih =>
    intro h
    unfold dropShadow at h
    split_ifs at h
    · exact h
    · unfold markW at h ⊢; split_ifs at h ⊢; exact ih h

theorem drop_unmark : ∀ (p q : List Str) (n : Net), markedAt q (dropAt p n) = true → markedAt q n = true := by
  intro p
  induction p with
  | nil => intro q n h; exact h
  | cons r p ih =>
    intro q n hm
    cases q with
    | nil => simp [markedAt] at hm
    | cons r' q =>
      cases p with
      | nil =>
        cases q with
        | nil => exact dropShadow_unmark r r' none none (fun _ k hk => by cases hk) n hm
        | cons q2 q => exact dropShadow_unmark r r' none _ (fun _ k hk => by cases hk) n hm
      | cons r2 p =>
        cases q with
        | nil => exact dropShadow_unmark r r' _ none (fun _ k _ km hkm => by cases hkm) n hm
        | cons q2 q => exact dropShadow_unmark r r' _ _ (fun _ k hk km hkm b hb => by cases hk; cases hkm; exact ih (q2 :: q) b hb) n hm

theorem dropShadow_mark (up up' : Str) (dn : Option (Net → Net)) (dm : Option (Net → Bool))
    (hk : up' = up → ∃ k, dn = some k ∧ ∀ km, dm = some km → ∀ b, km b = true → km (k b) = true) :
    ∀ n : Net, markW up' dm n = true → markW up' dm (dropShadow up dn n) = true := by
  intro n
  induction n with
  | nil => exact id
  | bad r ih => exact id
  | text r ih => exact ih
  | comp ref a r ih =>
    intro h
    unfold dropShadow
    split_ifs
    · exact h
    · unfold markW at h ⊢; split_ifs at h ⊢; exact ih h
  | inst ref a r ih =>
    intro h
    unfold dropShadow
    split_ifs
    · exact h
    · unfold markW at h ⊢; split_ifs at h ⊢; exact ih h
  | opened ref a nm b m r _ ih =>
    intro h
    unfold dropShadow
    by_cases hm : sameRef ref up = true
    · rw [if_pos hm]
      unfold markW at h
      by_cases hm' : sameRef ref up' = true
      · rw [if_pos hm'] at h
        obtain ⟨k, rfl, h1⟩ := hk (sameRef_eq hm' hm)
        simp only
        unfold markW
        rw [if_pos hm']
        cases dm with
        | none => exact h
        | some km => exact h1 km rfl b h
      · rw [if_neg hm'] at h
        cases dn <;> (simp only; unfold markW; rw [if_neg hm']; exact h)
    · rw [if_neg hm]
      unfold markW at h ⊢
      split_ifs at h ⊢
      · exact h
      · exact ih h
  | circ nm b r _ ih =>
    intro h
    unfold dropShadow
    split_ifs
    · exact h
    · unfold markW at h ⊢; split_ifs at h ⊢; exact ih h

theorem drop_mark : ∀ (p q : List Str) (n : Net), ¬ p <+: q → markedAt q n = true → markedAt q (dropAt p n) = true := by
  intro p
  induction p with
  | nil => intro q n h; exact (h List.nil_prefix).elim
  | cons r p ih =>
    intro q n h hm
    cases q with
    | nil => simp [markedAt] at hm
    | cons r' q =>
      have hq : r' = r → ¬ p <+: q := by
        rintro rfl
        simpa using h
      cases p with
      | nil =>
        have hne : r' ≠ r := fun e => hq e List.nil_prefix
        cases q with
        | nil => exact dropShadow_mark r r' none none (fun e => (hne e).elim) n hm
        | cons q2 q => exact dropShadow_mark r r' none _ (fun e => (hne e).elim) n hm
      | cons r2 p =>
        cases q with
        | nil => exact dropShadow_mark r r' _ none (fun e => ⟨_, rfl, by simp⟩) n hm
        | cons q2 q => exact dropShadow_mark r r' _ _ (fun e => ⟨_, rfl, by intro km hkm b hb; cases hkm; exact ih (q2 :: q) b (hq e) hb⟩) n hm

end Lemmas.Hier
