import Verif.Spec.Hier
import Mathlib.Data.List.Forall2
import Mathlib.Data.List.Nodup
import Mathlib.Tactic.SplitIfs
import Mathlib.Tactic.Tauto
namespace Lemmas.Hier
open Model.PyStr Model.Hier Spec.Hier
open Model.Netlist (Str)

/-- The definitions in a netlist, also those inside copies, have no copies in them. -/
def Static : Net → Prop
  | .nil => True
  | .text r => Static r
  | .bad r => Static r
  | .comp _ _ r => Static r
  | .inst _ _ r => Static r
  | .opened _ _ _ b _ r => Static b ∧ Static r
  | .circ _ b r => Pure b ∧ Static r

theorem Pure.static : ∀ n : Net, Pure n → Static n := by
  intro n
  induction n with
  | nil => intro h; trivial
  | text r ih => exact ih
  | bad r ih => exact ih
  | comp _ _ r ih => exact ih
  | inst _ _ r ih => exact ih
  | opened => intro h; exact h.elim
  | circ _ b r _ ih => exact fun h => ⟨h.1, ih h.2⟩

/-- Same elements with the same values, apart from comments, in possibly different cells. -/
inductive Sim (v v' : Nat → Str) : Net → Net → Prop where
  | nil : Sim v v' .nil .nil
  | textL {n n' : Net} : Sim v v' n n' → Sim v v' (.text n) n'
  | textR {n n' : Net} : Sim v v' n n' → Sim v v' n (.text n')
  | bad {n n' : Net} : Sim v v' n n' → Sim v v' (.bad n) (.bad n')
  | comp {ref : Str} {a a' : Nat} {n n' : Net} : v a = v' a' → Sim v v' n n' → Sim v v' (.comp ref a n) (.comp ref a' n')
  | inst {ref : Str} {a a' : Nat} {n n' : Net} : v a = v' a' → Sim v v' n n' → Sim v v' (.inst ref a n) (.inst ref a' n')
  | opened {ref name name' : Str} {a a' : Nat} {m m' : Bool} {b b' n n' : Net} : v a = v' a' → Sim v v' b b' → Sim v v' n n' →
      Sim v v' (.opened ref a name b m n) (.opened ref a' name' b' m' n')
  | circ {name : Str} {b b' n n' : Net} : Sim v v' b b' → Sim v v' n n' → Sim v v' (.circ name b n) (.circ name b' n')

/-- Two optional netlists that are both missing or similar. -/
def OSim (v v' : Nat → Str) : Option Net → Option Net → Prop
  | none, none => True
  | some b, some b' => Sim v v' b b'
  | _, _ => False

theorem sim_find (v v' : Nat → Str) (name : Str) {n n' : Net} (h : Sim v v' n n') : OSim v v' (findCirc name n) (findCirc name n') := by
  induction h with
  | nil => trivial
  | textL _ ih => exact ih
  | textR _ ih => exact ih
  | bad _ ih => exact ih
  | comp _ _ ih => exact ih
  | inst _ _ ih => exact ih
  | opened _ _ _ _ ih => exact ih
  | @circ nm b b' n n' hb _ _ ih =>
    unfold findCirc
    by_cases hn : nm = name
    · rw [if_pos hn, if_pos hn]; exact hb
    · rw [if_neg hn, if_neg hn]; exact ih

/-- Scopes with similar definitions. -/
def SSim (v v' : Nat → Str) (s s' : List Net) : Prop :=
  List.Forall₂ (fun c c' => ∀ name, OSim v v' (findCirc name c) (findCirc name c')) s s'

theorem ssim_find (v v' : Nat → Str) (name : Str) {s s' : List Net} (h : SSim v v' s s') : OSim v v' (findNamed name s) (findNamed name s') := by
  induction h with
  | nil => trivial
  | @cons c c' s s' hc _ ih =>
    unfold findNamed
    have := hc name
    cases h1 : findCirc name c <;> cases h2 : findCirc name c' <;> rw [h1, h2] at this
    · exact ih
    · exact this.elim
    · exact this.elim
    · exact this

theorem ssim_definition (numeric : Str → Bool) (v v' : Nat → Str) (x : Str) {s s' : List Net} (h : SSim v v' s s') :
    OSim v v' (definition numeric s x) (definition numeric s' x) := by
  unfold definition
  split
  · trivial
  · exact ssim_find v v' x h

theorem look_congr (numeric : Str → Bool) (v v' : Nat → Str) (up : Str) (down down' : Option (List Net → Net → Option Str))
    (hd : (down = none ∧ down' = none) ∨ ∃ k k', down = some k ∧ down' = some k' ∧ ∀ s s' b b', SSim v v' s s' → Sim v v' b b' → k s b = k' s' b')
    {s s' : List Net} (hs : SSim v v' s s') {n n' : Net} (h : Sim v v' n n') :
    look numeric v up down s n = look numeric v' up down' s' n' := by
  induction h with
  | nil => rfl
  | textL _ ih => exact ih
  | textR _ ih => exact ih
  | bad _ _ => rfl
  | comp ha _ ih =>
    unfold look
    split_ifs
    · rcases hd with ⟨rfl, rfl⟩ | ⟨k, k', rfl, rfl, _⟩
      · simp only [ha]
      · rfl
    · exact ih
  | inst ha _ ih =>
    unfold look
    split_ifs
    · rcases hd with ⟨rfl, rfl⟩ | ⟨k, k', rfl, rfl, hk⟩
      · simp only [ha]
      · simp only [ha]
        rename_i a' _ _ _ _
        have := ssim_definition numeric v v' (v' a') hs
        cases h1 : definition numeric s (v' a') <;> cases h2 : definition numeric s' (v' a') <;> rw [h1, h2] at this
        · exact this.elim
        · exact this.elim
        · exact hk _ _ _ _ hs this
    · exact ih
  | opened ha hb _ _ ih =>
    unfold look
    split_ifs
    · rcases hd with ⟨rfl, rfl⟩ | ⟨k, k', rfl, rfl, hk⟩
      · simp only [ha]
      · exact hk _ _ _ _ hs hb
    · exact ih
  | circ _ _ _ ih =>
    unfold look
    split_ifs
    · rfl
    · exact ih

theorem peek_congr (numeric : Str → Bool) (v v' : Nat → Str) : ∀ (p : List Str) (s s' : List Net) (n n' : Net),
    SSim v v' s s' → Sim v v' n n' → peek numeric v p s n = peek numeric v' p s' n' := by
  intro p
  induction p with
  | nil => intros; rfl
  | cons r p ih =>
    intro s s' n n' hs h
    have hs2 : SSim v v' (n :: s) (n' :: s') := .cons (fun name => sim_find v v' name h) hs
    cases p with
    | nil => exact look_congr numeric v v' r none none (Or.inl ⟨rfl, rfl⟩) hs2 h
    | cons r2 p =>
      unfold peek
      split_ifs
      · exact look_congr numeric v v' r _ _ (Or.inr ⟨_, _, rfl, rfl, fun s s' b b' h1 h2 => ih s s' b b' h1 h2⟩) hs2 h
      · rfl

theorem sim_of_agree (v v' : Nat → Str) : ∀ n : Net, (∀ a ∈ addrs n, v a = v' a) → Sim v v' n n := by
  intro n
  induction n with
  | nil => intro _; exact .nil
  | text r ih => intro h; exact .textL (.textR (ih h))
  | bad r ih => intro h; exact .bad (ih h)
  | comp ref a r ih => intro h; exact .comp (h a (by simp [addrs])) (ih (fun x hx => h x (by simp [addrs, hx])))
  | inst ref a r ih => intro h; exact .inst (h a (by simp [addrs])) (ih (fun x hx => h x (by simp [addrs, hx])))
  | opened ref a nm b m r ihb ih =>
    intro h
    exact .opened (h a (by simp [addrs])) (ihb (fun x hx => h x (by simp [addrs, hx]))) (ih (fun x hx => h x (by simp [addrs, hx])))
  | circ nm b r ihb ih =>
    intro h
    exact .circ (ihb (fun x hx => h x (by simp [addrs, hx]))) (ih (fun x hx => h x (by simp [addrs, hx])))

theorem find_addrs (name : Str) : ∀ (n b : Net), findCirc name n = some b → ∀ a ∈ addrs b, a ∈ addrs n := by
  intro n
  induction n with
  | nil => intro b h; simp [findCirc] at h
  | text r ih => exact ih
  | bad r ih => exact ih
  | comp ref x r ih => intro b h a ha; simp [addrs, ih b h a ha]
  | inst ref x r ih => intro b h a ha; simp [addrs, ih b h a ha]
  | opened ref x nm bb m r _ ih => intro b h a ha; simp [addrs, ih b h a ha]
  | circ nm bb r _ ih =>
    intro b h a ha
    unfold findCirc at h
    split_ifs at h
    · cases h; simp [addrs, ha]
    · simp [addrs, ih b h a ha]

/-- The cells of the definitions standing directly in a netlist. -/
def defAddrs : Net → List Nat
  | .nil => []
  | .text r => defAddrs r
  | .bad r => defAddrs r
  | .comp _ _ r => defAddrs r
  | .inst _ _ r => defAddrs r
  | .opened _ _ _ _ _ r => defAddrs r
  | .circ _ b r => addrs b ++ defAddrs r

theorem find_defAddrs (name : Str) : ∀ (n b : Net), findCirc name n = some b → ∀ a ∈ addrs b, a ∈ defAddrs n := by
  intro n
  induction n with
  | nil => intro b h; simp [findCirc] at h
  | text r ih => exact ih
  | bad r ih => exact ih
  | comp ref x r ih => intro b h a ha; simp [defAddrs, ih b h a ha]
  | inst ref x r ih => intro b h a ha; simp [defAddrs, ih b h a ha]
  | opened ref x nm bb m r _ ih => intro b h a ha; simp [defAddrs, ih b h a ha]
  | circ nm bb r _ ih =>
    intro b h a ha
    unfold findCirc at h
    split_ifs at h
    · cases h; simp [defAddrs, ha]
    · simp [defAddrs, ih b h a ha]

theorem defAddrs_addrs : ∀ (n : Net), ∀ a ∈ defAddrs n, a ∈ addrs n := by
  intro n
  induction n with
  | nil => intro a h; simp [defAddrs] at h
  | text r ih => exact ih
  | bad r ih => exact ih
  | comp ref x r ih => intro a h; simp [addrs, ih a h]
  | inst ref x r ih => intro a h; simp [addrs, ih a h]
  | opened ref x nm bb m r _ ih => intro a h; simp [addrs, ih a h]
  | circ nm bb r _ ih =>
    intro a h
    simp only [defAddrs, List.mem_append] at h
    rcases h with h | h
    · simp [addrs, h]
    · simp [addrs, ih a h]

/-- The same scope seen with values that agree on its definitions. -/
theorem ssim_of_agree (v v' : Nat → Str) (s : List Net) (h : ∀ c ∈ s, ∀ a ∈ defAddrs c, v a = v' a) : SSim v v' s s := by
  induction s with
  | nil => exact .nil
  | cons c s ih =>
    refine .cons ?_ (ih (fun c' hc => h c' (by simp [hc])))
    intro name
    cases hf : findCirc name c with
    | none => trivial
    | some b => exact sim_of_agree v v' b (fun a ha => h c (by simp) a (find_defAddrs name c b hf a ha))

/-! ### Clones -/

theorem clone_spec : ∀ (n : Net) (s s' : Store) (n' : Net), Pure n → (∀ a ∈ addrs n, a < s.fresh) → cloneBody n s = (n', s') →
    (∀ w : Nat → Str, (∀ a ∈ addrs n, w a = s.vals a) → Sim w s'.vals n n') ∧ s.fresh ≤ s'.fresh ∧ (∀ a, a < s.fresh → s'.vals a = s.vals a) ∧
    (∀ a ∈ addrs n', s.fresh ≤ a ∧ a < s'.fresh) ∧ (addrs n').Nodup ∧ Pure n' := by
  intro n
  induction n with
  | nil =>
    intro s s' n' _ _ h
    simp only [cloneBody, Prod.mk.injEq] at h
    obtain ⟨rfl, rfl⟩ := h
    exact ⟨fun _ _ => .nil, Nat.le_refl _, fun _ _ => rfl, by simp [addrs], by simp [addrs], trivial⟩
  | text r ih =>
    intro s s' n' hp ha h
    simp only [cloneBody] at h
    cases hc : cloneBody r s with
    | mk r' t =>
      rw [hc] at h
      simp only [Prod.mk.injEq] at h
      obtain ⟨rfl, rfl⟩ := h
      obtain ⟨h1, h2, h3, h4, h5, h6⟩ := ih s t r' hp ha hc
      exact ⟨fun w hw => .textL (.textR (h1 w hw)), h2, h3, h4, h5, h6⟩
  | bad r ih =>
    intro s s' n' hp ha h
    simp only [cloneBody] at h
    cases hc : cloneBody r s with
    | mk r' t =>
      rw [hc] at h
      simp only [Prod.mk.injEq] at h
      obtain ⟨rfl, rfl⟩ := h
      obtain ⟨h1, h2, h3, h4, h5, h6⟩ := ih s t r' hp ha hc
      exact ⟨fun w hw => .bad (h1 w hw), h2, h3, h4, h5, h6⟩
  | comp ref a r ih =>
    intro s s' n' hp ha h
    simp only [cloneBody, Store.alloc] at h
    cases hc : cloneBody r ⟨fun i => if i = s.fresh then s.vals a else s.vals i, s.fresh + 1⟩ with
    | mk r' t =>
      rw [hc] at h
      simp only [Prod.mk.injEq] at h
      obtain ⟨rfl, rfl⟩ := h
      obtain ⟨h1, h2, h3, h4, h5, h6⟩ := ih _ t r' hp (fun x hx => Nat.lt_succ_of_lt (ha x (by simp [addrs, hx]))) hc
      simp only at h2 h3 h4
      refine ⟨?_, by omega, ?_, ?_, ?_, h6⟩
      · intro w hw
        refine .comp ?_ (h1 w ?_)
        · rw [hw a (by simp [addrs]), h3 s.fresh (by omega)]; simp
        · intro x hx
          have hlt := ha x (by simp [addrs, hx])
          rw [hw x (by simp [addrs, hx])]
          simp [Nat.ne_of_lt hlt]
      · intro x hx
        rw [h3 x (by omega)]; simp [Nat.ne_of_lt hx]
      · intro x hx
        simp only [addrs, List.mem_cons] at hx
        rcases hx with rfl | hx
        · omega
        · have := h4 x hx; omega
      · simp only [addrs, List.nodup_cons]
        exact ⟨fun hx => by have := h4 _ hx; omega, h5⟩
  | inst ref a r ih =>
    intro s s' n' hp ha h
    simp only [cloneBody, Store.alloc] at h
    cases hc : cloneBody r ⟨fun i => if i = s.fresh then s.vals a else s.vals i, s.fresh + 1⟩ with
    | mk r' t =>
      rw [hc] at h
      simp only [Prod.mk.injEq] at h
      obtain ⟨rfl, rfl⟩ := h
      obtain ⟨h1, h2, h3, h4, h5, h6⟩ := ih _ t r' hp (fun x hx => Nat.lt_succ_of_lt (ha x (by simp [addrs, hx]))) hc
      simp only at h2 h3 h4
      refine ⟨?_, by omega, ?_, ?_, ?_, h6⟩
      · intro w hw
        refine .inst ?_ (h1 w ?_)
        · rw [hw a (by simp [addrs]), h3 s.fresh (by omega)]; simp
        · intro x hx
          have hlt := ha x (by simp [addrs, hx])
          rw [hw x (by simp [addrs, hx])]
          simp [Nat.ne_of_lt hlt]
      · intro x hx
        rw [h3 x (by omega)]; simp [Nat.ne_of_lt hx]
      · intro x hx
        simp only [addrs, List.mem_cons] at hx
        rcases hx with rfl | hx
        · omega
        · have := h4 x hx; omega
      · simp only [addrs, List.nodup_cons]
        exact ⟨fun hx => by have := h4 _ hx; omega, h5⟩
  | opened ref a nm b m r _ _ => intro s s' n' hp; exact hp.elim
  | circ nm b r ihb ih =>
    intro s s' n' hp ha h
    simp only [cloneBody] at h
    cases hb : cloneBody b s with
    | mk b' t =>
      rw [hb] at h
      simp only at h
      cases hc : cloneBody r t with
      | mk r' u =>
        rw [hc] at h
        simp only [Prod.mk.injEq] at h
        obtain ⟨rfl, rfl⟩ := h
        obtain ⟨g1, g2, g3, g4, g5, g6⟩ := ihb s t b' hp.1 (fun x hx => ha x (by simp [addrs, hx])) hb
        obtain ⟨h1, h2, h3, h4, h5, h6⟩ := ih t u r' hp.2 (fun x hx => Nat.lt_of_lt_of_le (ha x (by simp [addrs, hx])) g2) hc
        refine ⟨?_, by omega, ?_, ?_, ?_, ⟨g6, h6⟩⟩
        · intro w hw
          refine .circ (.textR ?_) (h1 w ?_)
          · have hs := g1 w (fun x hx => hw x (by simp [addrs, hx]))
            -- the copy of the body is not touched by the rest
            have hag : ∀ x ∈ addrs b', t.vals x = u.vals x := fun x hx => (h3 x (g4 x hx).2).symm
            clear * - hs hag
            generalize hv : t.vals = tv at hs hag
            induction hs with
            | nil => exact .nil
            | textL _ ih => exact .textL (ih hag)
            | textR _ ih => exact .textR (ih hag)
            | bad _ ih => exact .bad (ih hag)
            | comp e _ ih => exact .comp (by rw [e]; exact hag _ (by simp [addrs])) (ih (fun x hx => hag x (by simp [addrs, hx])))
            | inst e _ ih => exact .inst (by rw [e]; exact hag _ (by simp [addrs])) (ih (fun x hx => hag x (by simp [addrs, hx])))
            | opened e _ _ ih1 ih2 =>
              exact .opened (by rw [e]; exact hag _ (by simp [addrs])) (ih1 (fun x hx => hag x (by simp [addrs, hx]))) (ih2 (fun x hx => hag x (by simp [addrs, hx])))
            | circ _ _ ih1 ih2 => exact .circ (ih1 (fun x hx => hag x (by simp [addrs, hx]))) (ih2 (fun x hx => hag x (by simp [addrs, hx])))
          · intro x hx
            rw [hw x (by simp [addrs, hx]), g3 x (ha x (by simp [addrs, hx]))]
        · intro x hx
          rw [h3 x (by omega), g3 x hx]
        · intro x hx
          simp only [addrs, List.mem_append] at hx
          rcases hx with hx | hx
          · have := g4 x hx; omega
          · have := h4 x hx; omega
        · simp only [addrs]
          rw [List.nodup_append]
          refine ⟨g5, h5, ?_⟩
          intro x hx y hy hxy
          have := g4 x hx; have := h4 y hy; omega

end Lemmas.Hier
