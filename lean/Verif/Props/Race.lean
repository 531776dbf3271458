import Verif.Model.Race
import Mathlib.Data.List.Nodup
import Mathlib.Data.List.Perm.Basic
import Mathlib.Data.List.Count
import Mathlib.Tactic.ByContra
import Mathlib.Tactic.SplitIfs
import Mathlib.Tactic.Tauto
import Mathlib.Tactic.Push

/-! C61: threads sharing one SimRunner. -/
namespace Props.Race
open Model.Race

/-- A thread that took `t` off active_tasks and is about to append it to completed_tasks. -/
def Carries (s : St) (th t : Nat) : Prop := ∃ i : Nat, s.pc th = .put i t

structure Inv (s : St) : Prop where
  nodup : (s.active ++ (s.completed ++ s.taken)).Nodup
  bound : ∀ t ∈ s.active ++ (s.completed ++ s.taken), t < s.count
  apart : ∀ th t, Carries s th t → t < s.count ∧ t ∉ s.active ++ (s.completed ++ s.taken)
  single : ∀ th th' t, Carries s th t → Carries s th' t → th = th'
  all : ∀ t, t < s.count → t ∈ s.active ++ (s.completed ++ s.taken) ∨ ∃ th, Carries s th t

theorem carries_goto (s : St) (th th' t : Nat) (p : PC) :
    Carries (goto s th p) th' t ↔ (th' = th ∧ ∃ i, p = .put i t) ∨ (th' ≠ th ∧ Carries s th' t) := by
  unfold Carries goto
  by_cases h : th' = th
  · simp [h]
  · simp [h]

/-- `goto` to a place that carries nothing, from one that carried nothing -/
theorem inv_goto {s : St} (h : Inv s) {th : Nat} {p : PC} (h1 : ∀ t, ¬ Carries s th t) (h2 : ∀ i t, p ≠ .put i t) :
    Inv (goto s th p) := by
  have key : ∀ th' t, Carries (goto s th p) th' t ↔ Carries s th' t := by
    intro th' t
    rw [carries_goto]
    constructor
    · rintro (⟨_, i, e⟩ | ⟨_, c⟩)
      · exact absurd e (h2 i t)
      · exact c
    · intro c
      by_cases e : th' = th
      · subst e; exact absurd c (h1 t)
      · exact Or.inr ⟨e, c⟩
  refine ⟨h.nodup, h.bound, ?_, ?_, ?_⟩
  · intro th' t c; exact h.apart th' t ((key _ _).1 c)
  · intro a b t c d; exact h.single a b t ((key _ _).1 c) ((key _ _).1 d)
  · intro t ht
    rcases h.all t ht with m | ⟨x, c⟩
    · exact Or.inl m
    · exact Or.inr ⟨x, (key _ _).2 c⟩

theorem carries_of_pc {s : St} {th : Nat} {p : PC} (e : s.pc th = p) (h : ∀ i t, p ≠ .put i t) (t : Nat) : ¬ Carries s th t := by
  rintro ⟨i, c⟩; exact h i t (e ▸ c)

theorem eraseIdx_perm {l : List Nat} {i t : Nat} (h : l[i]? = some t) : l.Perm (t :: l.eraseIdx i) := by
  obtain ⟨hi, rfl⟩ := List.getElem?_eq_some_iff.1 h
  exact (List.getElem_cons_eraseIdx_perm hi).symm

theorem inv_tick {s s' : St} {th : Nat} (h : Inv s) (e : tick s th = some s') : Inv s' := by
  unfold tick at e
  cases hp : s.pc th with
  | idle => rw [hp] at e; cases e
  | crashed => rw [hp] at e; cases e
  | head i =>
    rw [hp] at e; simp only [Option.some.injEq] at e; subst e
    split_ifs
    · exact inv_goto h (carries_of_pc hp (by simp)) (by simp)
    · exact inv_goto h (carries_of_pc hp (by simp)) (by simp)
  | alive i =>
    rw [hp] at e; simp only at e
    cases ha : s.active[i]? with
    | none => rw [ha] at e; simp only [Option.some.injEq] at e; subst e; exact inv_goto h (carries_of_pc hp (by simp)) (by simp)
    | some t =>
      rw [ha] at e; simp only [Option.some.injEq] at e; subst e
      split_ifs
      · exact inv_goto h (carries_of_pc hp (by simp)) (by simp)
      · exact inv_goto h (carries_of_pc hp (by simp)) (by simp)
  | started i =>
    rw [hp] at e; simp only at e
    cases ha : s.active[i]? with
    | none => rw [ha] at e; simp only [Option.some.injEq] at e; subst e; exact inv_goto h (carries_of_pc hp (by simp)) (by simp)
    | some t =>
      rw [ha] at e; simp only [Option.some.injEq] at e; subst e
      split_ifs
      · exact inv_goto h (carries_of_pc hp (by simp)) (by simp)
      · exact inv_goto h (carries_of_pc hp (by simp)) (by simp)
  | result i =>
    rw [hp] at e; simp only at e
    cases ha : s.active[i]? with
    | none => rw [ha] at e; simp only [Option.some.injEq] at e; subst e; exact inv_goto h (carries_of_pc hp (by simp)) (by simp)
    | some t => rw [ha] at e; simp only [Option.some.injEq] at e; subst e; exact inv_goto h (carries_of_pc hp (by simp)) (by simp)
  | bump i ok =>
    rw [hp] at e; simp only [Option.some.injEq] at e; subst e
    have h' : Inv (if ok then { s with okSim := s.okSim + 1 } else { s with failSim := s.failSim + 1 }) := by
      split_ifs
      · exact ⟨h.nodup, h.bound, h.apart, h.single, h.all⟩
      · exact ⟨h.nodup, h.bound, h.apart, h.single, h.all⟩
    refine inv_goto h' ?_ (by simp)
    have hp' : (if ok then { s with okSim := s.okSim + 1 } else { s with failSim := s.failSim + 1 } : St).pc th = .bump i ok := by
      split_ifs <;> exact hp
    exact carries_of_pc hp' (by simp)
  | pop i =>
    rw [hp] at e; simp only at e
    cases ha : s.active[i]? with
    | none => rw [ha] at e; simp only [Option.some.injEq] at e; subst e; exact inv_goto h (carries_of_pc hp (by simp)) (by simp)
    | some t =>
      rw [ha] at e; simp only [Option.some.injEq] at e; subst e
      have hperm : (s.active ++ (s.completed ++ s.taken)).Perm (t :: (s.active.eraseIdx i ++ (s.completed ++ s.taken))) := by
        have := (eraseIdx_perm ha).append_right (s.completed ++ s.taken)
        simpa using this
      have hnd := hperm.nodup_iff.1 h.nodup
      rw [List.nodup_cons] at hnd
      have hmem : ∀ x, x ∈ s.active ++ (s.completed ++ s.taken) ↔ x = t ∨ x ∈ s.active.eraseIdx i ++ (s.completed ++ s.taken) := by
        intro x; rw [hperm.mem_iff]; simp
      have hc : ∀ th' x, Carries (goto { s with active := s.active.eraseIdx i } th (.put i t)) th' x ↔
          (th' = th ∧ x = t) ∨ (th' ≠ th ∧ Carries s th' x) := by
        intro th' x
        rw [carries_goto]
        have : Carries { s with active := s.active.eraseIdx i } th' x ↔ Carries s th' x := Iff.rfl
        rw [this]
        simp only [PC.put.injEq, exists_eq_left', eq_comm]
      refine ⟨hnd.2, ?_, ?_, ?_, ?_⟩
      · intro x hx; exact h.bound x ((hmem x).2 (Or.inr hx))
      · intro th' x c
        rcases (hc th' x).1 c with ⟨_, rfl⟩ | ⟨_, c'⟩
        · exact ⟨h.bound _ ((hmem _).2 (Or.inl rfl)), hnd.1⟩
        · have := h.apart th' x c'
          exact ⟨this.1, fun hx => this.2 ((hmem x).2 (Or.inr hx))⟩
      · intro a b x ca cb
        rcases (hc a x).1 ca with ⟨rfl, rfl⟩ | ⟨_, c'⟩ <;> rcases (hc b x).1 cb with ⟨rfl, hx⟩ | ⟨_, d'⟩
        · rfl
        · exact absurd ((hmem x).2 (Or.inl rfl)) (h.apart b x d').2
        · subst hx; exact absurd ((hmem x).2 (Or.inl rfl)) (h.apart a x c').2
        · exact h.single a b x c' d'
      · intro x hx
        rcases h.all x hx with m | ⟨a, c⟩
        · rcases (hmem x).1 m with rfl | m'
          · exact Or.inr ⟨th, (hc _ _).2 (Or.inl ⟨rfl, rfl⟩)⟩
          · exact Or.inl m'
        · by_cases ea : a = th
          · subst ea; exact absurd c (carries_of_pc hp (by simp) x)
          · exact Or.inr ⟨a, (hc _ _).2 (Or.inr ⟨ea, c⟩)⟩
  | put i t =>
    rw [hp] at e; simp only [Option.some.injEq] at e; subst e
    have hcar : Carries s th t := ⟨i, hp⟩
    have hat := h.apart th t hcar
    have hmem : ∀ x, x ∈ s.active ++ ((s.completed ++ [t]) ++ s.taken) ↔ x = t ∨ x ∈ s.active ++ (s.completed ++ s.taken) := by
      intro x; simp only [List.mem_append, List.mem_singleton]; tauto
    have hperm : (s.active ++ ((s.completed ++ [t]) ++ s.taken)).Perm (t :: (s.active ++ (s.completed ++ s.taken))) := by
      have := @List.perm_middle Nat t (s.active ++ s.completed) s.taken
      simpa using this
    have hc : ∀ th' x, Carries (goto { s with completed := s.completed ++ [t] } th (.head i)) th' x ↔ (th' ≠ th ∧ Carries s th' x) := by
      intro th' x
      rw [carries_goto]
      have : Carries { s with completed := s.completed ++ [t] } th' x ↔ Carries s th' x := Iff.rfl
      rw [this]
      simp
    refine ⟨?_, ?_, ?_, ?_, ?_⟩
    · exact hperm.nodup_iff.2 (List.nodup_cons.2 ⟨hat.2, h.nodup⟩)
    · intro x hx
      rcases (hmem x).1 hx with rfl | m
      · exact hat.1
      · exact h.bound x m
    · intro th' x c
      obtain ⟨ne, c'⟩ := (hc th' x).1 c
      refine ⟨(h.apart th' x c').1, fun hx => ?_⟩
      rcases (hmem x).1 hx with rfl | m
      · exact ne (h.single _ _ _ c' hcar)
      · exact (h.apart th' x c').2 m
    · intro a b x ca cb
      exact h.single a b x ((hc a x).1 ca).2 ((hc b x).1 cb).2
    · intro x hx
      rcases h.all x hx with m | ⟨a, c⟩
      · exact Or.inl ((hmem x).2 (Or.inr m))
      · by_cases ea : a = th
        · subst ea
          obtain ⟨j, c⟩ := c
          have ext : x = t := by rw [hp] at c; injection c with _ e2; exact e2.symm
          exact Or.inl ((hmem x).2 (Or.inl ext))
        · exact Or.inr ⟨a, (hc a x).2 ⟨ea, c⟩⟩

theorem inv_step {s s' : St} {a : Act} (h : Inv s) (e : step s a = some s') : Inv s' := by
  cases a with
  | launch th =>
    simp only [step] at e
    split_ifs at e with hi
    simp only [Option.some.injEq] at e; subst e
    have hmem : ∀ x, x ∈ (s.active ++ [s.count]) ++ (s.completed ++ s.taken) ↔ x = s.count ∨ x ∈ s.active ++ (s.completed ++ s.taken) := by
      intro x; simp only [List.mem_append, List.mem_singleton]; tauto
    have hperm : ((s.active ++ [s.count]) ++ (s.completed ++ s.taken)).Perm (s.count :: (s.active ++ (s.completed ++ s.taken))) := by
      have := @List.perm_middle Nat s.count s.active (s.completed ++ s.taken)
      simpa using this
    have hfresh : s.count ∉ s.active ++ (s.completed ++ s.taken) := fun hx => Nat.lt_irrefl _ (h.bound _ hx)
    refine ⟨hperm.nodup_iff.2 (List.nodup_cons.2 ⟨hfresh, h.nodup⟩), ?_, ?_, h.single, ?_⟩
    · intro x hx
      rcases (hmem x).1 hx with rfl | m
      · exact Nat.lt_succ_self _
      · exact Nat.lt_succ_of_lt (h.bound x m)
    · intro th' x c
      have := h.apart th' x c
      refine ⟨Nat.lt_succ_of_lt this.1, fun hx => ?_⟩
      rcases (hmem x).1 hx with rfl | m
      · exact Nat.lt_irrefl _ this.1
      · exact this.2 m
    · intro x hx
      by_cases ex : x = s.count
      · exact Or.inl ((hmem x).2 (Or.inl ex))
      · have hx' : x < s.count := by have : x < s.count + 1 := hx; omega
        rcases h.all x hx' with m | c
        · exact Or.inl ((hmem x).2 (Or.inr m))
        · exact Or.inr c
  | begin t =>
    simp only [step] at e; split_ifs at e with hi; simp only [Option.some.injEq] at e; subst e
    exact ⟨h.nodup, h.bound, h.apart, h.single, h.all⟩
  | start t =>
    simp only [step] at e; split_ifs at e with hi; simp only [Option.some.injEq] at e; subst e
    exact ⟨h.nodup, h.bound, h.apart, h.single, h.all⟩
  | ends t rc =>
    simp only [step] at e; split_ifs at e with hi; simp only [Option.some.injEq] at e; subst e
    exact ⟨h.nodup, h.bound, h.apart, h.single, h.all⟩
  | call th =>
    simp only [step] at e; split_ifs at e with hi; simp only [Option.some.injEq] at e; subst e
    exact inv_goto h (carries_of_pc hi (by simp)) (by simp)
  | tick th => exact inv_tick h e
  | take th =>
    simp only [step] at e
    by_cases hi : s.pc th = .idle
    · rw [if_pos hi] at e
      cases hcm : s.completed with
      | nil => rw [hcm] at e; cases e
      | cons t rest =>
        rw [hcm] at e; simp only [Option.some.injEq] at e; subst e
        have hmem : ∀ x, x ∈ s.active ++ (rest ++ (s.taken ++ [t])) ↔ x ∈ s.active ++ (s.completed ++ s.taken) := by
          intro x; rw [hcm]; simp only [List.mem_append, List.mem_singleton, List.mem_cons]; tauto
        have hperm : (s.active ++ (rest ++ (s.taken ++ [t]))).Perm (s.active ++ (s.completed ++ s.taken)) := by
          rw [hcm]
          apply List.Perm.append_left
          have := @List.perm_append_comm Nat (rest ++ s.taken) [t]
          simpa using this
        refine ⟨hperm.nodup_iff.2 h.nodup, ?_, ?_, h.single, ?_⟩
        · intro x hx; exact h.bound x ((hmem x).1 hx)
        · intro th' x c
          exact ⟨(h.apart th' x c).1, fun hx => (h.apart th' x c).2 ((hmem x).1 hx)⟩
        · intro x hx
          rcases h.all x hx with m | c
          · exact Or.inl ((hmem x).2 m)
          · exact Or.inr c
    · rw [if_neg hi] at e; cases e

theorem inv_reach {G : St → Act → Prop} {s : St} (r : Reach G s) : Inv s := by
  induction r with
  | init =>
    refine ⟨by simp [init], by simp [init], ?_, ?_, ?_⟩
    · rintro th t ⟨i, e⟩; simp [init] at e
    · rintro th th' t ⟨i, e⟩; simp [init] at e
    · intro t ht; simp [init] at ht
  | step r _ e ih => exact inv_step ih e

/-- However many threads share the runner and however they interleave: no task is in two places or twice in one, and while no
thread is inside update_completed none is missing. -/
theorem C61_each_once {s : St} (r : Reach anySchedule s) :
    (s.active ++ s.completed ++ s.taken).Nodup ∧
    ((∀ th, s.pc th = .idle) → ∀ t, t < s.count ↔ t ∈ s.active ∨ t ∈ s.completed ∨ t ∈ s.taken) := by
  have h := inv_reach r
  refine ⟨by simpa [List.append_assoc] using h.nodup, fun hidle t => ⟨fun ht => ?_, fun hm => ?_⟩⟩
  · rcases h.all t ht with m | ⟨th, i, c⟩
    · simpa [List.mem_append] using m
    · rw [hidle th] at c; cases c
  · exact h.bound t (by simpa [List.mem_append] using hm)

/-- Even while threads are inside: at most the tasks those threads are carrying over are missing. -/
theorem C61_missing_is_carried {s : St} (r : Reach anySchedule s) (t : Nat) (ht : t < s.count)
    (h : t ∉ s.active ∧ t ∉ s.completed ∧ t ∉ s.taken) : ∃ th i, s.pc th = .put i t := by
  rcases (inv_reach r).all t ht with m | ⟨th, i, c⟩
  · simp [List.mem_append, h.1, h.2.1, h.2.2] at m
  · exact ⟨th, i, c⟩

/-! ### Non-overlapping executions -/

/-- What the thread inside update_completed knows. -/
def Knows (s : St) : PC → Prop
  | .idle => True
  | .head _ => True
  | .alive i => i < s.active.length
  | .started i => ∃ t, s.active[i]? = some t ∧ s.phase t = .ended
  | .result i => ∃ t, s.active[i]? = some t ∧ s.phase t = .ended
  | .bump i ok => ∃ t, s.active[i]? = some t ∧ s.phase t = .ended ∧ ok = (s.retcode t == 0)
  | .pop i => ∃ t, s.active[i]? = some t ∧ s.phase t = .ended
  | .put _ t => s.phase t = .ended
  | .crashed => False

/-- Tasks already counted but not yet appended to completed_tasks. -/
def pend (s : St) : PC → List Nat
  | .pop i => (s.active[i]?).toList
  | .put _ t => [t]
  | _ => []

structure Own (s : St) (o : Nat) : Prop where
  others : ∀ th, th ≠ o → s.pc th = .idle
  noCreated : s.pc o ≠ .idle → ∀ t, t < s.count → s.phase t ≠ .created
  knows : Knows s (s.pc o)
  ended : ∀ t ∈ s.completed ++ s.taken ++ pend s (s.pc o), s.phase t = .ended
  ok : s.okSim = (s.completed ++ s.taken ++ pend s (s.pc o)).countP (fun t => s.retcode t == 0)
  fail : s.failSim = (s.completed ++ s.taken ++ pend s (s.pc o)).countP (fun t => !(s.retcode t == 0))

theorem goto_pc_self (s : St) (th : Nat) (p : PC) : (goto s th p).pc th = p := by simp [goto]
theorem goto_pc_ne (s : St) {th j : Nat} (p : PC) (h : j ≠ th) : (goto s th p).pc j = s.pc j := by simp [goto, h]

/-- moving the owner to a place with the same pending tasks -/
theorem own_goto {s : St} {o : Nat} (h : Own s o) (hn : s.pc o ≠ .idle) {p : PC} (hk : Knows s p) (hp : pend s p = pend s (s.pc o)) :
    Own (goto s o p) o := by
  have e := goto_pc_self s o p
  have hk' : Knows (goto s o p) p := by cases p <;> exact hk
  have hp' : pend (goto s o p) p = pend s (s.pc o) := by rw [← hp]; cases p <;> rfl
  refine ⟨?_, ?_, ?_, ?_, ?_, ?_⟩
  · intro th hth; rw [goto_pc_ne s p hth]; exact h.others th hth
  · intro _; exact h.noCreated hn
  · rw [e]; exact hk'
  · rw [e, hp']; exact h.ended
  · rw [e, hp']; exact h.ok
  · rw [e, hp']; exact h.fail

theorem own_tick {s s' : St} {o : Nat} (hi : Inv s) (h : Own s o) (e : tick s o = some s') : Own s' o := by
  unfold tick at e
  cases hp : s.pc o with
  | idle => rw [hp] at e; cases e
  | crashed => rw [hp] at e; cases e
  | head i =>
    rw [hp] at e; simp only [Option.some.injEq] at e; subst e
    split_ifs with hl
    · exact own_goto h (by rw [hp]; simp) hl (by rw [hp]; rfl)
    · exact own_goto h (by rw [hp]; simp) trivial (by rw [hp]; rfl)
  | alive i =>
    have hk := h.knows; rw [hp] at hk
    rw [hp] at e; simp only at e
    have ha : s.active[i]? = some (s.active[i]'hk) := List.getElem?_eq_getElem hk
    rw [ha] at e; simp only [Option.some.injEq] at e; subst e
    split_ifs with hal
    · exact own_goto h (by rw [hp]; simp) trivial (by rw [hp]; rfl)
    · refine own_goto h (by rw [hp]; simp) ⟨_, ha, ?_⟩ (by rw [hp]; rfl)
      have hb : s.active[i]'hk < s.count := hi.bound _ (List.mem_append_left _ (List.getElem_mem hk))
      have hnc := h.noCreated (by rw [hp]; simp) _ hb
      cases hph : s.phase (s.active[i]'hk) with
      | created => exact absurd hph hnc
      | begun => rw [hph] at hal; simp [isAlive] at hal
      | running => rw [hph] at hal; simp [isAlive] at hal
      | ended => rfl
  | started i =>
    have hk := h.knows; rw [hp] at hk
    obtain ⟨t, ha, hph⟩ := hk
    rw [hp] at e; simp only at e
    rw [ha] at e; simp only [Option.some.injEq] at e
    rw [if_neg (by simp [hph, startNone])] at e
    subst e
    exact own_goto h (by rw [hp]; simp) ⟨t, ha, hph⟩ (by rw [hp]; rfl)
  | result i =>
    have hk := h.knows; rw [hp] at hk
    obtain ⟨t, ha, hph⟩ := hk
    rw [hp] at e; simp only at e
    rw [ha] at e; simp only [Option.some.injEq] at e
    subst e
    exact own_goto h (by rw [hp]; simp) ⟨t, ha, hph, rfl⟩ (by rw [hp]; rfl)
  | bump i ok =>
    have hk := h.knows; rw [hp] at hk
    obtain ⟨t, ha, hph, hok⟩ := hk
    have h1 := h.ended; have h2 := h.ok; have h3 := h.fail
    rw [hp] at h1 h2 h3
    simp only [pend, List.append_nil] at h1 h2 h3
    rw [hp] at e; simp only [Option.some.injEq] at e; subst e
    have hoth := h.others
    have hnc := h.noCreated (by rw [hp]; simp)
    cases hr : (s.retcode t == 0) with
    | true =>
      rw [hr] at hok; subst hok
      rw [if_pos rfl]
      refine ⟨?_, ?_, ?_, ?_, ?_, ?_⟩
      · intro th hth; rw [goto_pc_ne _ _ hth]; exact hoth th hth
      · intro _; exact hnc
      · rw [goto_pc_self]; exact ⟨t, ha, hph⟩
      · rw [goto_pc_self]; simp only [pend, goto, ha, Option.toList]
        intro x hx
        rcases List.mem_append.1 hx with m | m
        · exact h1 x m
        · rw [List.mem_singleton.1 m]; exact hph
      · rw [goto_pc_self]; simp only [pend, goto, ha, Option.toList]
        rw [List.countP_append, ← h2]; simp [hr]
      · rw [goto_pc_self]; simp only [pend, goto, ha, Option.toList]
        rw [List.countP_append, ← h3]; simp [hr]
    | false =>
      rw [hr] at hok; subst hok
      rw [if_neg (by simp)]
      refine ⟨?_, ?_, ?_, ?_, ?_, ?_⟩
      · intro th hth; rw [goto_pc_ne _ _ hth]; exact hoth th hth
      · intro _; exact hnc
      · rw [goto_pc_self]; exact ⟨t, ha, hph⟩
      · rw [goto_pc_self]; simp only [pend, goto, ha, Option.toList]
        intro x hx
        rcases List.mem_append.1 hx with m | m
        · exact h1 x m
        · rw [List.mem_singleton.1 m]; exact hph
      · rw [goto_pc_self]; simp only [pend, goto, ha, Option.toList]
        rw [List.countP_append, ← h2]; simp [hr]
      · rw [goto_pc_self]; simp only [pend, goto, ha, Option.toList]
        rw [List.countP_append, ← h3]; simp [hr]
  | pop i =>
    have hk := h.knows; rw [hp] at hk
    obtain ⟨t, ha, hph⟩ := hk
    have h1 := h.ended; have h2 := h.ok; have h3 := h.fail
    rw [hp] at h1 h2 h3
    simp only [pend, ha, Option.toList] at h1 h2 h3
    rw [hp] at e; simp only at e
    rw [ha] at e; simp only [Option.some.injEq] at e; subst e
    refine ⟨?_, ?_, ?_, ?_, ?_, ?_⟩
    · intro th hth; rw [goto_pc_ne _ _ hth]; exact h.others th hth
    · intro _; exact h.noCreated (by rw [hp]; simp)
    · rw [goto_pc_self]; exact hph
    · rw [goto_pc_self]; exact h1
    · rw [goto_pc_self]; exact h2
    · rw [goto_pc_self]; exact h3
  | put i t =>
    have h1 := h.ended; have h2 := h.ok; have h3 := h.fail
    rw [hp] at h1 h2 h3
    simp only [pend] at h1 h2 h3
    rw [hp] at e; simp only [Option.some.injEq] at e; subst e
    have hperm : (s.completed ++ [t] ++ s.taken).Perm (s.completed ++ s.taken ++ [t]) := by
      have := List.Perm.append_left s.completed (@List.perm_append_comm Nat [t] s.taken)
      simpa using this
    refine ⟨?_, ?_, ?_, ?_, ?_, ?_⟩
    · intro th hth; rw [goto_pc_ne _ _ hth]; exact h.others th hth
    · intro _; exact h.noCreated (by rw [hp]; simp)
    · rw [goto_pc_self]; trivial
    · rw [goto_pc_self]; simp only [pend, goto, List.append_nil]
      intro x hx; exact h1 x (hperm.mem_iff.1 hx)
    · rw [goto_pc_self]; simp only [pend, goto, List.append_nil]
      rw [hperm.countP_eq]; exact h2
    · rw [goto_pc_self]; simp only [pend, goto, List.append_nil]
      rw [hperm.countP_eq]; exact h3

/-- Steps of the tasks: tasks that ended stay so, with their result. -/
theorem own_task {s s' : St} {o : Nat} (h : Own s o) (h1 : s'.active = s.active) (h2 : s'.completed = s.completed)
    (h3 : s'.taken = s.taken) (h4 : s'.okSim = s.okSim) (h5 : s'.failSim = s.failSim) (h6 : s'.pc = s.pc) (h7 : s'.count = s.count)
    (h8 : ∀ t, s.phase t = .ended → s'.phase t = .ended ∧ s'.retcode t = s.retcode t)
    (h9 : ∀ t, s'.phase t = .created → s.phase t = .created) : Own s' o := by
  have hpend : pend s' (s'.pc o) = pend s (s.pc o) := by
    rw [h6]; cases s.pc o <;> simp [pend, h1]
  have hc : ∀ f : Int → Bool, (s.completed ++ s.taken ++ pend s (s.pc o)).countP (fun t => f (s'.retcode t)) =
      (s.completed ++ s.taken ++ pend s (s.pc o)).countP (fun t => f (s.retcode t)) := by
    intro f
    apply List.countP_congr
    intro x hx
    rw [(h8 x (h.ended x hx)).2]
  refine ⟨?_, ?_, ?_, ?_, ?_, ?_⟩
  · intro th hth; rw [h6]; exact h.others th hth
  · intro hn t ht hc
    rw [h6] at hn; rw [h7] at ht
    exact h.noCreated hn t ht (h9 t hc)
  · have hk := h.knows
    rw [h6]
    cases hp : s.pc o with
    | idle => trivial
    | head i => trivial
    | crashed => rw [hp] at hk; exact hk
    | alive i => rw [hp] at hk; simpa [Knows, h1] using hk
    | started i => rw [hp] at hk; obtain ⟨t, a, b⟩ := hk; exact ⟨t, by rw [h1]; exact a, (h8 t b).1⟩
    | result i => rw [hp] at hk; obtain ⟨t, a, b⟩ := hk; exact ⟨t, by rw [h1]; exact a, (h8 t b).1⟩
    | bump i ok => rw [hp] at hk; obtain ⟨t, a, b, c⟩ := hk; exact ⟨t, by rw [h1]; exact a, (h8 t b).1, by rw [(h8 t b).2]; exact c⟩
    | pop i => rw [hp] at hk; obtain ⟨t, a, b⟩ := hk; exact ⟨t, by rw [h1]; exact a, (h8 t b).1⟩
    | put i t => rw [hp] at hk; exact (h8 t hk).1
  · rw [hpend, h2, h3]; intro x hx; exact (h8 x (h.ended x hx)).1
  · rw [hpend, h2, h3, h4, h.ok]; exact (hc (fun r => r == 0)).symm
  · rw [hpend, h2, h3, h5, h.fail]; exact (hc (fun r => !(r == 0))).symm

theorem own_step {s s' : St} {a : Act} (hi : Inv s) (h : ∃ o, Own s o) (g : locked s a) (e : step s a = some s') : ∃ o, Own s' o := by
  obtain ⟨o, h⟩ := h
  cases a with
  | launch th =>
    have g' : ∀ th, s.pc th = .idle := g
    simp only [step] at e; split_ifs at e with hx
    simp only [Option.some.injEq] at e; subst e
    refine ⟨o, h.others, ?_, ?_, ?_, ?_, ?_⟩
    · intro hn; exact absurd (g' o) hn
    · show Knows _ (s.pc o); rw [g' o]; trivial
    · have := h.ended; simp only [g' o, pend] at this ⊢; exact this
    · have := h.ok; simp only [g' o, pend] at this ⊢; exact this
    · have := h.fail; simp only [g' o, pend] at this ⊢; exact this
  | begin t =>
    simp only [step] at e; split_ifs at e with hx; simp only [Option.some.injEq] at e; subst e
    refine ⟨o, own_task h rfl rfl rfl rfl rfl rfl rfl ?_ ?_⟩
    · intro x hx'; refine ⟨?_, rfl⟩
      by_cases ex : x = t
      · subst ex; rw [hx.2] at hx'; cases hx'
      · simp [setPhase, ex, hx']
    · intro x hx'
      by_cases ex : x = t
      · subst ex; exact hx.2
      · simpa [setPhase, ex] using hx'
  | start t =>
    simp only [step] at e; split_ifs at e with hx; simp only [Option.some.injEq] at e; subst e
    refine ⟨o, own_task h rfl rfl rfl rfl rfl rfl rfl ?_ ?_⟩
    · intro x hx'; refine ⟨?_, rfl⟩
      by_cases ex : x = t
      · subst ex; rw [hx.2] at hx'; cases hx'
      · simp [setPhase, ex, hx']
    · intro x hx'
      by_cases ex : x = t
      · subst ex; simp [setPhase] at hx'
      · simpa [setPhase, ex] using hx'
  | ends t rc =>
    simp only [step] at e; split_ifs at e with hx; simp only [Option.some.injEq] at e; subst e
    refine ⟨o, own_task h rfl rfl rfl rfl rfl rfl rfl ?_ ?_⟩
    · intro x hx'
      by_cases ex : x = t
      · subst ex; rw [hx.2] at hx'; cases hx'
      · simp [setPhase, ex, hx']
    · intro x hx'
      by_cases ex : x = t
      · subst ex; simp [setPhase] at hx'
      · simpa [setPhase, ex] using hx'
  | call th =>
    obtain ⟨g1, g2⟩ := g
    simp only [step] at e; split_ifs at e with hx; simp only [Option.some.injEq] at e; subst e
    refine ⟨th, ?_, fun _ => g2, ?_, ?_, ?_, ?_⟩
    · intro j hj; rw [goto_pc_ne _ _ hj]; exact g1 j
    · rw [goto_pc_self]; trivial
    · rw [goto_pc_self]; have := h.ended; simp only [g1 o, pend] at this ⊢; exact this
    · rw [goto_pc_self]; have := h.ok; simp only [g1 o, pend] at this ⊢; exact this
    · rw [goto_pc_self]; have := h.fail; simp only [g1 o, pend] at this ⊢; exact this
  | tick th =>
    by_cases ht : th = o
    · subst ht; exact ⟨th, own_tick hi h e⟩
    · have := h.others th ht
      simp only [step, tick, this] at e; cases e
  | take th =>
    simp only [step] at e
    by_cases hx : s.pc th = .idle
    · rw [if_pos hx] at e
      cases hcm : s.completed with
      | nil => rw [hcm] at e; cases e
      | cons t rest =>
        rw [hcm] at e; simp only [Option.some.injEq] at e; subst e
        have hperm : (rest ++ (s.taken ++ [t]) ++ pend s (s.pc o)).Perm (s.completed ++ s.taken ++ pend s (s.pc o)) := by
          rw [hcm]
          apply List.Perm.append_right
          have := @List.perm_append_comm Nat (rest ++ s.taken) [t]
          simpa using this
        have hpe : ∀ p, pend { s with completed := rest, taken := s.taken ++ [t] } p = pend s p := by intro p; cases p <;> rfl
        have hkn : ∀ p, Knows s p → Knows { s with completed := rest, taken := s.taken ++ [t] } p := by intro p hk; cases p <;> exact hk
        refine ⟨o, h.others, h.noCreated, hkn _ h.knows, ?_, ?_, ?_⟩
        · rw [hpe]; intro x hx; exact h.ended x (hperm.mem_iff.1 hx)
        · rw [hpe]; rw [hperm.countP_eq]; exact h.ok
        · rw [hpe]; rw [hperm.countP_eq]; exact h.fail
    · rw [if_neg hx] at e; cases e

theorem own_reach {s : St} (r : Reach locked s) : ∃ o, Own s o := by
  induction r with
  | init => exact ⟨0, fun _ _ => rfl, fun h => absurd rfl h, trivial, by simp [init, pend], by simp [init, pend], by simp [init, pend]⟩
  | step r g e ih => exact own_step (inv_reach r) ih g e

/-- With a lock around both sections: a task is reported (in completed_tasks, or taken from there) only after its simulation ended,
no thread dies of an IndexError, and whenever no thread is inside the counters are the numbers of reported tasks that succeeded and
failed. -/
theorem C61_locked {s : St} (r : Reach locked s) :
    (∀ t, t ∈ s.completed ∨ t ∈ s.taken → s.phase t = .ended) ∧
    (∀ th, s.pc th ≠ .crashed) ∧
    ((∀ th, s.pc th = .idle) →
      s.okSim = (s.completed ++ s.taken).countP (fun t => s.retcode t == 0) ∧
      s.okSim + s.failSim = s.completed.length + s.taken.length) := by
  obtain ⟨o, h⟩ := own_reach r
  refine ⟨?_, ?_, ?_⟩
  · intro t ht; exact h.ended t (by simp [List.mem_append]; tauto)
  · intro th hc
    by_cases e : th = o
    · subst e; have := h.knows; rw [hc] at this; exact this
    · rw [h.others th e] at hc; cases hc
  · intro hid
    have h1 := h.ok; have h2 := h.fail
    rw [hid o] at h1 h2
    simp only [pend, List.append_nil] at h1 h2
    refine ⟨h1, ?_⟩
    rw [h1, h2, ← List.length_append]
    rw [List.length_eq_countP_add_countP (fun t => s.retcode t == 0) (l := s.completed ++ s.taken)]
    congr 2
    funext t
    cases s.retcode t == 0 <;> rfl

/-! ### Concrete schedules -/

theorem reach_run {s s' : St} {l : List Act} (r : Reach anySchedule s) (e : runAll s l = some s') : Reach anySchedule s' := by
  induction l generalizing s with
  | nil => simp only [runAll, Option.some.injEq] at e; subst e; exact r
  | cons a as ih =>
    simp only [runAll] at e
    cases h : step s a with
    | none => rw [h] at e; cases e
    | some s1 => rw [h] at e; exact ih (Reach.step r trivial h) e

/-- the thread a step belongs to -/
def threadOf : Act → Nat
  | .launch th => th | .call th => th | .tick th => th | .take th => th | _ => 0

theorem pc_other {s s' : St} {a : Act} {j : Nat} (hj : j ≠ threadOf a) (e : step s a = some s') :
    s'.pc j = s.pc j := by
  cases a with
  | launch th => simp only [step] at e; split_ifs at e; simp only [Option.some.injEq] at e; subst e; rfl
  | begin t => simp only [step] at e; split_ifs at e; simp only [Option.some.injEq] at e; subst e; rfl
  | start t => simp only [step] at e; split_ifs at e; simp only [Option.some.injEq] at e; subst e; rfl
  | ends t rc => simp only [step] at e; split_ifs at e; simp only [Option.some.injEq] at e; subst e; rfl
  | call th => simp only [step] at e; split_ifs at e; simp only [Option.some.injEq] at e; subst e; exact goto_pc_ne _ _ hj
  | take th =>
    simp only [step] at e
    by_cases hx : s.pc th = .idle
    · rw [if_pos hx] at e
      cases hcm : s.completed with
      | nil => rw [hcm] at e; cases e
      | cons t rest => rw [hcm] at e; simp only [Option.some.injEq] at e; subst e; rfl
    · rw [if_neg hx] at e; cases e
  | tick th =>
    have hj' : j ≠ th := hj
    simp only [step, tick] at e
    cases hp : s.pc th with
    | idle => rw [hp] at e; cases e
    | crashed => rw [hp] at e; cases e
    | head i => rw [hp] at e; simp only [Option.some.injEq] at e; subst e; split_ifs <;> exact goto_pc_ne _ _ hj'
    | alive i =>
      rw [hp] at e; simp only at e
      cases ha : s.active[i]? with
      | none => rw [ha] at e; simp only [Option.some.injEq] at e; subst e; exact goto_pc_ne _ _ hj'
      | some t => rw [ha] at e; simp only [Option.some.injEq] at e; subst e; split_ifs <;> exact goto_pc_ne _ _ hj'
    | started i =>
      rw [hp] at e; simp only at e
      cases ha : s.active[i]? with
      | none => rw [ha] at e; simp only [Option.some.injEq] at e; subst e; exact goto_pc_ne _ _ hj'
      | some t => rw [ha] at e; simp only [Option.some.injEq] at e; subst e; split_ifs <;> exact goto_pc_ne _ _ hj'
    | result i =>
      rw [hp] at e; simp only at e
      cases ha : s.active[i]? with
      | none => rw [ha] at e; simp only [Option.some.injEq] at e; subst e; exact goto_pc_ne _ _ hj'
      | some t => rw [ha] at e; simp only [Option.some.injEq] at e; subst e; exact goto_pc_ne _ _ hj'
    | bump i ok =>
      rw [hp] at e; simp only [Option.some.injEq] at e; subst e
      rw [goto_pc_ne _ _ hj']; split_ifs <;> rfl
    | pop i =>
      rw [hp] at e; simp only at e
      cases ha : s.active[i]? with
      | none => rw [ha] at e; simp only [Option.some.injEq] at e; subst e; exact goto_pc_ne _ _ hj'
      | some t => rw [ha] at e; simp only [Option.some.injEq] at e; subst e; exact goto_pc_ne _ _ hj'
    | put i t => rw [hp] at e; simp only [Option.some.injEq] at e; subst e; exact goto_pc_ne _ _ hj'

/-- `locked` (`full`) or `oneAtATime` for schedules of threads 0 and 1, checkable -/
def allowed (full : Bool) (s : St) : Act → Bool
  | .call _ => decide (s.pc 0 = .idle) && decide (s.pc 1 = .idle) && (!full || (List.range s.count).all (fun t => s.phase t ≠ .created))
  | .launch _ => !full || (decide (s.pc 0 = .idle) && decide (s.pc 1 = .idle))
  | _ => true

def runAllowed (full : Bool) : St → List Act → Option St
  | s, [] => some s
  | s, a :: as => if allowed full s a && decide (threadOf a < 2) then
      match step s a with
      | none => none
      | some s' => runAllowed full s' as
    else none

theorem runAllowed_ind {G : St → Act → Prop} {full : Bool}
    (hG : ∀ (s : St) (a : Act), (∀ th, 2 ≤ th → s.pc th = .idle) → allowed full s a = true → G s a)
    {l : List Act} : ∀ {s s' : St}, Reach G s → (∀ th, 2 ≤ th → s.pc th = .idle) → runAllowed full s l = some s' → Reach G s' := by
  induction l with
  | nil => intro s s' r _ e; simp only [runAllowed, Option.some.injEq] at e; subst e; exact r
  | cons a as ih =>
    intro s s' r hid e
    simp only [runAllowed] at e
    by_cases hc : (allowed full s a && decide (threadOf a < 2)) = true
    · rw [if_pos hc] at e
      rw [Bool.and_eq_true, decide_eq_true_eq] at hc
      cases h : step s a with
      | none => rw [h] at e; cases e
      | some s1 =>
        rw [h] at e
        refine ih (Reach.step r (hG s a hid hc.1) h) ?_ e
        intro th hth
        rw [pc_other (by omega) h]
        exact hid th hth
    · rw [if_neg hc] at e; cases e

theorem idle_all {s : St} (h : ∀ th, 2 ≤ th → s.pc th = .idle) (h0 : s.pc 0 = .idle) (h1 : s.pc 1 = .idle) (th : Nat) : s.pc th = .idle := by
  match th with
  | 0 => exact h0
  | 1 => exact h1
  | n + 2 => exact h _ (by omega)

theorem reach_locked {l : List Act} {s' : St} (e : runAllowed true init l = some s') : Reach locked s' := by
  refine runAllowed_ind ?_ Reach.init (fun _ _ => rfl) e
  intro s a hid ha
  cases a with
  | call th =>
    simp only [allowed, Bool.and_eq_true, decide_eq_true_eq, Bool.not_true, Bool.false_or, List.all_eq_true, List.mem_range] at ha
    exact ⟨idle_all hid ha.1.1 ha.1.2, ha.2⟩
  | launch th =>
    simp only [allowed, Bool.and_eq_true, decide_eq_true_eq, Bool.not_true, Bool.false_or] at ha
    exact idle_all hid ha.1 ha.2
  | _ => trivial

theorem reach_oneAtATime {l : List Act} {s' : St} (e : runAllowed false init l = some s') : Reach oneAtATime s' := by
  refine runAllowed_ind ?_ Reach.init (fun _ _ => rfl) e
  intro s a hid ha
  cases a with
  | call th =>
    simp only [allowed, Bool.and_eq_true, decide_eq_true_eq, Bool.not_false, Bool.true_or, and_true] at ha
    exact idle_all hid ha.1 ha.2
  | _ => trivial

/-- Non-trivial locked schedule: two tasks, one ends, is moved by thread 1 and taken while the other runs. -/
def lockedRun : List Act :=
  [.launch 0, .begin 0, .start 0, .launch 0, .begin 1, .ends 0 0, .call 1, .tick 1, .tick 1, .tick 1, .tick 1, .tick 1, .tick 1,
   .start 1, .tick 1, .tick 1, .tick 1, .tick 1, .take 1]

example : ∃ s : St, Reach locked s ∧ s.taken = [0] ∧ s.active = [1] ∧ s.okSim = 1 :=
  ⟨_, reach_locked (l := lockedRun) rfl, rfl, rfl, rfl⟩

/-- Two tasks run; the second one is still running. The request thread (0) and the manager (1) both find task 0 ended; thread 0 moves
it; thread 1, now looking at position 0 where the running task has moved to, counts and reports that one. -/
def raceRun : List Act :=
  [.launch 0, .begin 0, .start 0, .launch 0, .begin 1, .start 1, .ends 0 0,
   .call 0, .call 1, .tick 0, .tick 1, .tick 0, .tick 1, .tick 0, .tick 1,
   .tick 0, .tick 0, .tick 0, .tick 0,
   .tick 1, .tick 1, .tick 1, .tick 1, .tick 0, .tick 1]

/-- Not true of the code: on the server a simulation that is still running is reported as completed, and as failed. -/
theorem C61_running_reported : ∃ s : St, Reach anySchedule s ∧ 1 ∈ s.completed ∧ s.phase 1 = .running ∧ s.failSim = 1 ∧
    (∀ th, s.pc th = .idle) ∧ s.active.length < 1 :=
  ⟨_, reach_run (l := raceRun) Reach.init rfl, by decide +kernel, rfl, rfl, fun th => by
    match th with
    | 0 => rfl
    | 1 => rfl
    | n + 2 => rfl, by decide +kernel⟩

/-- Not true of the code: with one simulation only, both threads count it, and the second `pop` raises IndexError, which ends the
thread (for the manager: for good). -/
def crashRun : List Act :=
  [.launch 0, .begin 0, .start 0, .ends 0 0,
   .call 0, .call 1, .tick 0, .tick 1, .tick 0, .tick 1, .tick 0, .tick 1, .tick 0, .tick 1, .tick 0, .tick 1, .tick 0, .tick 0,
   .tick 1]

theorem C61_index_error : ∃ s : St, Reach anySchedule s ∧ s.count = 1 ∧ s.okSim = 2 ∧ s.pc 1 = .crashed :=
  ⟨_, reach_run (l := crashRun) Reach.init rfl, rfl, rfl, rfl⟩

/-- Not true of the code either when update_completed alone is protected: the manager reads `is_alive()` of a task that was appended
but not started, then the task starts, then the manager reads its `start_time`. -/
def startRun : List Act :=
  [.launch 0, .call 1, .tick 1, .tick 1, .begin 0, .start 0, .tick 1, .tick 1, .tick 1, .tick 1, .tick 1, .tick 1]

theorem C61_started_meanwhile : ∃ s : St, Reach oneAtATime s ∧ 0 ∈ s.completed ∧ s.phase 0 = .running ∧ s.failSim = 1 ∧
    (∀ th, s.pc th = .idle) :=
  ⟨_, reach_oneAtATime (l := startRun) rfl, by decide +kernel, rfl, rfl, fun th => by
    match th with
    | 0 => rfl
    | 1 => rfl
    | n + 2 => rfl⟩

/-- Once the manager died nothing is handed over any more, whatever the other threads do: on the server only the manager takes
tasks out of completed_tasks (`take`). -/
theorem C61_manager_gone {s s' : St} {l : List Act} {m : Nat} (hc : s.pc m = .crashed)
    (hl : ∀ a ∈ l, ∀ th, a = .take th → th = m) (e : runAll s l = some s') : s'.taken = s.taken ∧ s'.pc m = .crashed := by
  induction l generalizing s with
  | nil => simp only [runAll, Option.some.injEq] at e; subst e; exact ⟨rfl, hc⟩
  | cons a as ih =>
    simp only [runAll] at e
    cases h : step s a with
    | none => rw [h] at e; cases e
    | some s1 =>
      rw [h] at e
      have hth : m ≠ threadOf a ∨ (∃ t, a = .begin t) ∨ (∃ t, a = .start t) ∨ ∃ t rc, a = .ends t rc := by
        by_contra hcon
        push Not at hcon
        obtain ⟨h1, h2, h3, h4⟩ := hcon
        cases a with
        | launch th => have : m = th := h1; subst this; simp [step, hc] at h
        | call th => have : m = th := h1; subst this; simp [step, hc] at h
        | tick th => have : m = th := h1; subst this; simp [step, tick, hc] at h
        | take th => have : m = th := h1; subst this; simp [step, hc] at h
        | begin t => exact h2 t rfl
        | start t => exact h3 t rfl
        | ends t rc => exact h4 t rc rfl
      have hc1 : s1.pc m = .crashed := by
        rcases hth with h1 | ⟨t, rfl⟩ | ⟨t, rfl⟩ | ⟨t, rc, rfl⟩
        · rw [pc_other h1 h]; exact hc
        · simp only [step] at h; split_ifs at h; simp only [Option.some.injEq] at h; subst h; exact hc
        · simp only [step] at h; split_ifs at h; simp only [Option.some.injEq] at h; subst h; exact hc
        · simp only [step] at h; split_ifs at h; simp only [Option.some.injEq] at h; subst h; exact hc
      have htk : s1.taken = s.taken := by
        cases a with
        | launch th => simp only [step] at h; split_ifs at h; simp only [Option.some.injEq] at h; subst h; rfl
        | begin t => simp only [step] at h; split_ifs at h; simp only [Option.some.injEq] at h; subst h; rfl
        | start t => simp only [step] at h; split_ifs at h; simp only [Option.some.injEq] at h; subst h; rfl
        | ends t rc => simp only [step] at h; split_ifs at h; simp only [Option.some.injEq] at h; subst h; rfl
        | call th => simp only [step] at h; split_ifs at h; simp only [Option.some.injEq] at h; subst h; rfl
        | take th =>
          have := hl (.take th) (by simp) th rfl
          subst this; simp [step, hc] at h
        | tick th =>
          simp only [step, tick] at h
          cases hp : s.pc th <;> rw [hp] at h <;> simp only at h
          · cases h
          · simp only [Option.some.injEq] at h; subst h; split_ifs <;> rfl
          all_goals first
            | (simp only [Option.some.injEq] at h; subst h; first | rfl | (split_ifs <;> rfl))
            | (rename_i i; cases ha : s.active[i]? <;> rw [ha] at h <;> simp only [Option.some.injEq] at h <;> subst h <;> first | rfl | (split_ifs <;> rfl))
            | cases h
      obtain ⟨r1, r2⟩ := ih hc1 (fun b hb th hb' => hl b (by simp [hb]) th hb') e
      exact ⟨r1.trans htk, r2⟩

/-- Such a state is reached on the server (thread 1 is the manager), with the finished simulation never handed over. -/
example : ∃ s : St, Reach anySchedule s ∧ s.pc 1 = .crashed ∧ s.completed = [0] ∧ s.taken = [] :=
  ⟨_, reach_run (l := crashRun ++ [.tick 0]) Reach.init rfl, rfl, rfl, rfl⟩

end Props.Race
