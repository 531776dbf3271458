import Verif.Model.Wait
import Mathlib.Tactic.Linarith
import Mathlib.Tactic.SplitIfs
import Mathlib.Tactic.ByContra
import Mathlib.Tactic.Push
import Mathlib.Data.Nat.Cast.Order.Basic
/-
C83: waiting for the simulations of a runner.
-/
namespace Props.Wait
open Model.Wait

/-- The clock does not go back, and every turn begins with a pause of a second. -/
structure Ticks (t0 : ℚ) (clock : Nat → Turn) : Prop where
  first : t0 + 1 ≤ (clock 0).u
  order : ∀ k, (clock k).u ≤ (clock k).c
  pause : ∀ k, (clock k).c + 1 ≤ (clock (k + 1)).u

/-- The simulation has started and ended by this moment. -/
def EndedBy (j : Job) (u : ℚ) : Prop := (∃ s, j.start = some s ∧ s ≤ u) ∧ ∃ e, j.stop = some e ∧ e ≤ u

/-- The moment the simulation exceeds its own timeout, or that of the runner when it has none. -/
def Exceeds (runner : Option ℚ) (u : ℚ) (j : Job) (d : ℚ) : Prop :=
  ∃ s t, j.start = some s ∧ s ≤ u ∧ (j.timeout = some t ∨ (j.timeout = none ∧ runner = some t)) ∧ d = s + t

/-- The wait is given up in turn `k`: the given timeout is over; or none was given, and of the simulations still running at least one
has a timeout, and all that have one have exceeded it. -/
def GivenUp (runner timeout : Option ℚ) (t0 : ℚ) (turn : Turn) (jobs : List Job) : Prop :=
  (∃ T, timeout = some T ∧ t0 + T < turn.c) ∨
  (timeout = none ∧ (∃ j ∈ jobs, ¬ EndedBy j turn.u ∧ ∃ d, Exceeds runner turn.u j d) ∧
    ∀ j ∈ jobs, ¬ EndedBy j turn.u → ∀ d, Exceeds runner turn.u j d → d < turn.c)

theorem done_iff (j : Job) (u : ℚ) : j.done u = true ↔ EndedBy j u := by
  unfold Job.done EndedBy
  cases j.start <;> cases j.stop <;> simp

theorem limit_iff (runner : Option ℚ) (u : ℚ) (j : Job) (d : ℚ) : limit runner u j = some d ↔ Exceeds runner u j d := by
  unfold limit Exceeds
  cases ht : j.timeout with
  | some t =>
    cases hs : j.start with
    | none => simp
    | some s =>
      dsimp only
      constructor
      · intro h
        split_ifs at h with hu
        injection h with h
        exact ⟨s, t, rfl, hu, Or.inl rfl, h.symm⟩
      · rintro ⟨s', t', h1, h2, h3, rfl⟩
        injection h1 with h1
        rcases h3 with h3 | ⟨h3, _⟩
        · injection h3 with h3
          subst h1 h3
          rw [if_pos h2]
        · cases h3
  | none =>
    cases hr : runner with
    | none => simp
    | some t =>
      cases hs : j.start with
      | none => simp
      | some s =>
        dsimp only
        constructor
        · intro h
          split_ifs at h with hu
          injection h with h
          exact ⟨s, t, rfl, hu, Or.inr ⟨rfl, rfl⟩, h.symm⟩
        · rintro ⟨s', t', h1, h2, h3, rfl⟩
          injection h1 with h1
          rcases h3 with h3 | ⟨_, h3⟩
          · cases h3
          · injection h3 with h3
            subst h1 h3
            rw [if_pos h2]

theorem maxStop_spec (runner : Option ℚ) (u : ℚ) : ∀ (js : List Job) (alarm : Option ℚ),
    (maxStop runner u js alarm = none ↔ alarm = none ∧ ∀ j ∈ js, limit runner u j = none) ∧
    ∀ m, maxStop runner u js alarm = some m →
      (∀ c, m < c ↔ (∀ a, alarm = some a → a < c) ∧ ∀ j ∈ js, ∀ d, limit runner u j = some d → d < c) := by
  intro js
  induction js with
  | nil =>
    intro alarm
    refine ⟨by simp [maxStop], ?_⟩
    intro m h c
    simp only [maxStop] at h
    rw [h]
    constructor
    · intro hc; exact ⟨fun a ha => by injection ha with ha; rw [← ha]; exact hc, fun j hj => by cases hj⟩
    · rintro ⟨h1, _⟩; exact h1 m rfl
  | cons j js ih =>
    intro alarm
    unfold maxStop
    cases hl : limit runner u j with
    | none =>
      dsimp only
      obtain ⟨i1, i2⟩ := ih alarm
      refine ⟨?_, ?_⟩
      · rw [i1]; simp [hl]
      · intro m h c
        rw [i2 m h c]
        simp [hl]
    | some stop =>
      dsimp only
      cases ha : alarm with
      | none =>
        dsimp only
        obtain ⟨i1, i2⟩ := ih (some stop)
        refine ⟨?_, ?_⟩
        · rw [i1]; simp [hl]
        · intro m h c
          rw [i2 m h c]
          simp [hl]
      | some a =>
        dsimp only
        obtain ⟨i1, i2⟩ := ih (some (if stop > a then stop else a))
        refine ⟨?_, ?_⟩
        · rw [i1]; simp
        · intro m h c
          rw [i2 m h c]
          simp only [Option.some.injEq, forall_eq', List.mem_cons, forall_eq_or_imp, hl]
          constructor
          · rintro ⟨h1, h2⟩
            split_ifs at h1 with hg
            · exact ⟨lt_trans hg h1, h1, h2⟩
            · exact ⟨h1, lt_of_le_of_lt (not_lt.mp hg) h1, h2⟩
          · rintro ⟨h1, h2, h3⟩
            refine ⟨?_, h3⟩
            split_ifs <;> assumption

/-- The simulations of a list that are still running at a moment. -/
theorem active_mem {u : ℚ} {jobs : List Job} {j : Job} : j ∈ jobs.filter (fun j => !j.done u) ↔ j ∈ jobs ∧ ¬ EndedBy j u := by
  rw [List.mem_filter]
  have := done_iff j u
  cases h : j.done u with
  | true => simp [this.mp h]
  | false =>
    have hn : ¬ EndedBy j u := fun hh => by rw [this.mpr hh] at h; cases h
    simp [hn]

/-- Deciding to give up in a turn. -/
theorem gives_up (runner timeout : Option ℚ) (t0 : ℚ) (turn : Turn) (jobs : List Job) :
    (∃ s, stopAt runner (timeout.map (t0 + ·)) turn.u (jobs.filter (fun j => !j.done turn.u)) = some s ∧ turn.c > s) ↔
      GivenUp runner timeout t0 turn jobs := by
  unfold GivenUp stopAt
  cases timeout with
  | some T =>
    simp
  | none =>
    simp only [Option.map_none, reduceCtorEq, false_and, exists_false, true_and, false_or]
    obtain ⟨i1, i2⟩ := maxStop_spec runner turn.u (jobs.filter (fun j => !j.done turn.u)) none
    constructor
    · rintro ⟨s, h1, h2⟩
      have h3 := ((i2 s h1) turn.c).mp h2
      refine ⟨?_, ?_⟩
      · by_contra hc
        have : maxStop runner turn.u (jobs.filter (fun j => !j.done turn.u)) none = none := by
          rw [i1]
          refine ⟨rfl, fun j hj => ?_⟩
          rw [active_mem] at hj
          cases hl : limit runner turn.u j with
          | none => rfl
          | some d => exact absurd ⟨j, hj.1, hj.2, d, (limit_iff _ _ _ _).mp hl⟩ hc
        rw [this] at h1; cases h1
      · intro j hj he d hd
        exact h3.2 j (active_mem.mpr ⟨hj, he⟩) d ((limit_iff _ _ _ _).mpr hd)
    · rintro ⟨⟨j, hj, he, d, hd⟩, h2⟩
      cases hm : maxStop runner turn.u (jobs.filter (fun j => !j.done turn.u)) none with
      | none =>
        have := (i1.mp hm).2 j (active_mem.mpr ⟨hj, he⟩)
        rw [(limit_iff _ _ _ _).mpr hd] at this; cases this
      | some s =>
        refine ⟨s, rfl, ((i2 s hm) turn.c).mpr ⟨fun a ha => (by cases ha), ?_⟩⟩
        intro j hj d hd
        rw [active_mem] at hj
        exact h2 j hj.1 hj.2 d ((limit_iff _ _ _ _).mp hd)

/-- One turn of the loop. -/
theorem loop_step (runner timeout : Option ℚ) (t0 : ℚ) (clock : Nat → Turn) (n k : Nat) (active : List Job) (failed : Nat) :
    loop runner (timeout.map (t0 + ·)) clock (n + 1) k active failed =
      if active = [] then some (failed == 0) else
        open Classical in
        if GivenUp runner timeout t0 (clock k) active then some false
        else loop runner (timeout.map (t0 + ·)) clock n (k + 1) (update (clock k).u active failed).1 (update (clock k).u active failed).2 := by
  classical
  have hg := gives_up runner timeout t0 (clock k) active
  conv_lhs => unfold loop
  by_cases ha : active = []
  · rw [if_pos ha, ha]; rfl
  · rw [if_neg ha, if_pos (List.length_pos_iff.mpr ha)]
    dsimp only
    by_cases hG : GivenUp runner timeout t0 (clock k) active
    · rw [if_pos hG]
      obtain ⟨s, h1, h2⟩ := hg.mpr hG
      unfold update
      dsimp only
      rw [h1]
      dsimp only
      rw [if_pos h2]
    · rw [if_neg hG]
      cases hs : stopAt runner (timeout.map (t0 + ·)) (clock k).u (update (clock k).u active failed).1 with
      | none => rfl
      | some s =>
        dsimp only
        rw [if_neg]
        intro hc
        exact hG (hg.mp ⟨s, hs, hc⟩)

/-- What is known in the loop: the active simulations are those not ended at the last look, and the failures counted are the earlier ones and
those of the ended simulations. -/
structure Seen (jobs active : List Job) (failed0 failed : Nat) (u : ℚ) : Prop where
  active : active = jobs.filter (fun j => !j.done u)
  failed : failed = failed0 + jobs.countP (fun j => j.done u && !j.ok)

theorem ended_mono {j : Job} {u v : ℚ} (h : u ≤ v) (hd : EndedBy j u) : EndedBy j v := by
  obtain ⟨⟨s, g1, g2⟩, e, h1, h2⟩ := hd
  exact ⟨⟨s, g1, le_trans g2 h⟩, e, h1, le_trans h2 h⟩

theorem done_mono {j : Job} {u v : ℚ} (h : u ≤ v) (hd : j.done u = true) : j.done v = true := by
  rw [done_iff] at *
  exact ended_mono h hd

theorem count_split (jobs : List Job) (u v : ℚ) (h : u ≤ v) :
    jobs.countP (fun j => j.done v && !j.ok) = jobs.countP (fun j => j.done u && !j.ok) +
      (jobs.filter (fun j => !j.done u)).countP (fun j => j.done v && !j.ok) := by
  induction jobs with
  | nil => rfl
  | cons j js ih =>
    simp only [List.countP_cons, List.filter_cons]
    cases hu : j.done u with
    | true =>
      have hv := done_mono h hu
      simp only [hv, Bool.not_true, Bool.false_eq_true, if_false, Bool.true_and]
      rw [ih]; omega
    | false =>
      simp only [Bool.not_false, if_true, Bool.false_and, Bool.false_eq_true, if_false, List.countP_cons, Nat.add_zero]
      rw [ih]; omega

theorem seen_update {jobs active : List Job} {failed0 failed : Nat} {u v : ℚ} (h : Seen jobs active failed0 failed u) (huv : u ≤ v) :
    Seen jobs (update v active failed).1 failed0 (update v active failed).2 v := by
  unfold update
  refine ⟨?_, ?_⟩
  · dsimp only
    rw [h.active, List.filter_filter]
    apply List.filter_congr
    intro j _
    cases hu : j.done u with
    | true => simp [done_mono huv hu]
    | false => simp
  · dsimp only
    rw [h.failed, h.active, count_split jobs u v huv]
    omega

/-- Giving up only depends on the simulations still running. -/
theorem givenUp_active {runner timeout : Option ℚ} {t0 : ℚ} {turn : Turn} {jobs active : List Job} {failed0 failed : Nat} {u : ℚ}
    (h : Seen jobs active failed0 failed u) (hu : u ≤ turn.u) : GivenUp runner timeout t0 turn active ↔ GivenUp runner timeout t0 turn jobs := by
  have hm : ∀ j, (j ∈ active ∧ ¬ EndedBy j turn.u) ↔ (j ∈ jobs ∧ ¬ EndedBy j turn.u) := by
    intro j
    rw [h.active, active_mem]
    constructor
    · rintro ⟨⟨h1, _⟩, h2⟩; exact ⟨h1, h2⟩
    · rintro ⟨h1, h2⟩
      exact ⟨⟨h1, fun hh => h2 (ended_mono hu hh)⟩, h2⟩
  unfold GivenUp
  refine or_congr Iff.rfl (and_congr Iff.rfl (and_congr ?_ ?_))
  · constructor
    · rintro ⟨j, h1, h2, h3⟩; exact ⟨j, ((hm j).mp ⟨h1, h2⟩).1, h2, h3⟩
    · rintro ⟨j, h1, h2, h3⟩; exact ⟨j, ((hm j).mpr ⟨h1, h2⟩).1, h2, h3⟩
  · constructor
    · intro h j h1 h2; exact h j ((hm j).mpr ⟨h1, h2⟩).1 h2
    · intro h j h1 h2; exact h j ((hm j).mp ⟨h1, h2⟩).1 h2

/-- The moment of the look before turn `k`. -/
def lookBefore (t0 : ℚ) (clock : Nat → Turn) : Nat → ℚ
  | 0 => t0
  | k + 1 => (clock k).u

theorem look_le {t0 : ℚ} {clock : Nat → Turn} (h : Ticks t0 clock) (k : Nat) : lookBefore t0 clock k ≤ (clock k).u := by
  cases k with
  | zero => have := h.first; show t0 ≤ _; linarith
  | succ k => have := h.order k; have := h.pause k; show (clock k).u ≤ _; linarith

/-- All simulations have ended at the last look. -/
theorem seen_empty {jobs active : List Job} {failed0 failed : Nat} {u : ℚ} (h : Seen jobs active failed0 failed u) :
    active = [] ↔ ∀ j ∈ jobs, EndedBy j u := by
  rw [h.active, List.filter_eq_nil_iff]
  constructor
  · intro g j hj
    have := g j hj
    rw [← done_iff]
    simpa using this
  · intro g j hj
    have := (done_iff j u).mpr (g j hj)
    simp [this]

theorem seen_all {jobs active : List Job} {failed0 failed : Nat} {u : ℚ} (h : Seen jobs active failed0 failed u) (he : ∀ j ∈ jobs, EndedBy j u) :
    (failed == 0) = true ↔ failed0 = 0 ∧ ∀ j ∈ jobs, j.ok = true := by
  rw [beq_iff_eq, h.failed, Nat.add_eq_zero_iff, List.countP_eq_zero]
  refine and_congr Iff.rfl ⟨fun g j hj => ?_, fun g j hj => ?_⟩
  · have := g j hj
    rw [(done_iff j u).mpr (he j hj)] at this
    simpa using this
  · simp [g j hj]

theorem loop_spec (runner timeout : Option ℚ) (t0 : ℚ) (clock : Nat → Turn) (ht : Ticks t0 clock) (jobs : List Job) (failed0 : Nat) :
    ∀ (n k : Nat) (active : List Job) (failed : Nat) (b : Bool), Seen jobs active failed0 failed (lookBefore t0 clock k) →
    loop runner (timeout.map (t0 + ·)) clock n k active failed = some b →
    ∃ m, k ≤ m ∧ m ≤ k + n ∧ (∀ i, k ≤ i → i < m → ¬ GivenUp runner timeout t0 (clock i) jobs ∧ ¬ ∀ j ∈ jobs, EndedBy j (lookBefore t0 clock i)) ∧
      (((∀ j ∈ jobs, EndedBy j (lookBefore t0 clock m)) ∧ (b = true ↔ failed0 = 0 ∧ ∀ j ∈ jobs, j.ok = true)) ∨
       ((¬ ∀ j ∈ jobs, EndedBy j (lookBefore t0 clock m)) ∧ GivenUp runner timeout t0 (clock m) jobs ∧ b = false)) := by
  classical
  intro n
  induction n with
  | zero =>
    intro k active failed b hs h
    unfold loop at h
    split_ifs at h with ha
    injection h with h
    have he : active = [] := List.length_eq_zero_iff.mp (by omega)
    have hall := (seen_empty hs).mp he
    refine ⟨k, le_refl _, le_refl _, fun i h1 h2 => absurd h1 (by omega), Or.inl ⟨hall, ?_⟩⟩
    rw [← h]
    exact seen_all hs hall
  | succ n ih =>
    intro k active failed b hs h
    rw [loop_step] at h
    split_ifs at h with ha hg
    · injection h with h
      have hall := (seen_empty hs).mp ha
      refine ⟨k, le_refl _, by omega, fun i h1 h2 => absurd h1 (by omega), Or.inl ⟨hall, ?_⟩⟩
      rw [← h]
      exact seen_all hs hall
    · injection h with h
      refine ⟨k, le_refl _, by omega, fun i h1 h2 => absurd h1 (by omega), Or.inr ⟨?_, (givenUp_active hs (look_le ht k)).mp hg, h.symm⟩⟩
      intro hall
      exact ha ((seen_empty hs).mpr hall)
    · obtain ⟨m, h1, h2, h3, h4⟩ := ih (k + 1) _ _ b (seen_update hs (look_le ht k)) h
      refine ⟨m, by omega, by omega, ?_, h4⟩
      intro i hi1 hi2
      rcases Nat.eq_or_lt_of_le hi1 with rfl | hi
      · refine ⟨fun hg' => hg ((givenUp_active hs (look_le ht k)).mpr hg'), fun hall => ha ((seen_empty hs).mpr hall)⟩
      · exact h3 i (by omega) hi2

theorem seen_start (t0 : ℚ) (clock : Nat → Turn) (jobs : List Job) (failed0 : Nat) :
    Seen jobs (update t0 jobs failed0).1 failed0 (update t0 jobs failed0).2 (lookBefore t0 clock 0) := ⟨rfl, rfl⟩

/-- C83: what the answer of wait_completion means. The call ends at the first look that finds all simulations ended, with True exactly when
all of them succeeded and none had failed before; or in the first turn in which the wait is given up, with False. Up to then it has neither
found all simulations ended nor had a reason to give up. -/
theorem C83_answer (runner timeout : Option ℚ) (t0 : ℚ) (clock : Nat → Turn) (ht : Ticks t0 clock) (n : Nat) (jobs : List Job) (failed : Nat)
    (b : Bool) (h : waitCompletion runner timeout t0 clock n jobs failed = some b) :
    ∃ m, m ≤ n ∧ (∀ i < m, ¬ GivenUp runner timeout t0 (clock i) jobs ∧ ¬ ∀ j ∈ jobs, EndedBy j (lookBefore t0 clock i)) ∧
      (((∀ j ∈ jobs, EndedBy j (lookBefore t0 clock m)) ∧ (b = true ↔ failed = 0 ∧ ∀ j ∈ jobs, j.ok = true)) ∨
       ((¬ ∀ j ∈ jobs, EndedBy j (lookBefore t0 clock m)) ∧ GivenUp runner timeout t0 (clock m) jobs ∧ b = false)) := by
  obtain ⟨m, _, h2, h3, h4⟩ := loop_spec runner timeout t0 clock ht jobs failed n 0 _ _ b (seen_start t0 clock jobs failed) h
  exact ⟨m, by omega, fun i hi => h3 i (Nat.zero_le _) hi, h4⟩

/-- C83: True means that every simulation has ended and succeeded, and that none had failed before. -/
theorem C83_true (runner timeout : Option ℚ) (t0 : ℚ) (clock : Nat → Turn) (ht : Ticks t0 clock) (n : Nat) (jobs : List Job) (failed : Nat)
    (h : waitCompletion runner timeout t0 clock n jobs failed = some true) :
    failed = 0 ∧ ∀ j ∈ jobs, j.ok = true ∧ ∃ e, j.stop = some e := by
  obtain ⟨m, _, _, h3⟩ := C83_answer runner timeout t0 clock ht n jobs failed true h
  rcases h3 with ⟨h4, h5⟩ | ⟨_, _, h5⟩
  · obtain ⟨h6, h7⟩ := h5.mp rfl
    refine ⟨h6, fun j hj => ⟨h7 j hj, ?_⟩⟩
    obtain ⟨_, e, he, _⟩ := h4 j hj
    exact ⟨e, he⟩
  · cases h5

theorem loop_none (runner timeout : Option ℚ) (t0 : ℚ) (clock : Nat → Turn) (ht : Ticks t0 clock) (jobs : List Job) (failed0 : Nat) :
    ∀ (n k : Nat) (active : List Job) (failed : Nat), Seen jobs active failed0 failed (lookBefore t0 clock k) →
    loop runner (timeout.map (t0 + ·)) clock n k active failed = none →
    (∀ i, k ≤ i → i < k + n → ¬ GivenUp runner timeout t0 (clock i) jobs) ∧ ¬ ∀ j ∈ jobs, EndedBy j (lookBefore t0 clock (k + n)) := by
  classical
  intro n
  induction n with
  | zero =>
    intro k active failed hs h
    unfold loop at h
    split_ifs at h with ha
    refine ⟨fun i h1 h2 => by omega, fun hall => ?_⟩
    have := (seen_empty hs).mpr hall
    rw [this] at ha; simp at ha
  | succ n ih =>
    intro k active failed hs h
    rw [loop_step] at h
    split_ifs at h with ha hg
    obtain ⟨h1, h2⟩ := ih (k + 1) _ _ (seen_update hs (look_le ht k)) h
    refine ⟨?_, ?_⟩
    · intro i hi1 hi2
      rcases Nat.eq_or_lt_of_le hi1 with rfl | hi
      · exact fun hg' => hg ((givenUp_active hs (look_le ht k)).mpr hg')
      · exact h1 i (by omega) (by omega)
    · have : k + (n + 1) = k + 1 + n := by omega
      rw [this]; exact h2

theorem clock_late {t0 : ℚ} {clock : Nat → Turn} (h : Ticks t0 clock) : ∀ k : Nat, t0 + (k : ℚ) + 1 ≤ (clock k).u ∧ t0 + (k : ℚ) + 1 ≤ (clock k).c := by
  intro k
  induction k with
  | zero =>
    have h1 := h.first
    have h2 := h.order 0
    constructor <;> simp <;> linarith
  | succ k ih =>
    have h1 := h.pause k
    have h2 := h.order (k + 1)
    push_cast
    constructor <;> linarith [ih.2]

/-- C83: with a timeout the call always ends: after `n` turns at the latest when the timeout is not more than `n` seconds. -/
theorem C83_timeout_ends (runner : Option ℚ) (T t0 : ℚ) (clock : Nat → Turn) (ht : Ticks t0 clock) (n : Nat) (hn : T ≤ n) (jobs : List Job) (failed : Nat) :
    ∃ b, waitCompletion runner (some T) t0 clock (n + 1) jobs failed = some b := by
  cases h : waitCompletion runner (some T) t0 clock (n + 1) jobs failed with
  | some b => exact ⟨b, rfl⟩
  | none =>
    obtain ⟨h1, _⟩ := loop_none runner (some T) t0 clock ht jobs failed (n + 1) 0 _ _ (seen_start t0 clock jobs failed) h
    exfalso
    refine h1 n (Nat.zero_le _) (by omega) (Or.inl ⟨T, rfl, ?_⟩)
    have := (clock_late ht n).2
    linarith

/-- C83: when all simulations end, the call ends, at the latest at the first look after the last of them. -/
theorem C83_ends (runner timeout : Option ℚ) (t0 z : ℚ) (clock : Nat → Turn) (ht : Ticks t0 clock) (n : Nat) (hn : z ≤ t0 + n) (jobs : List Job) (failed : Nat)
    (hz : ∀ j ∈ jobs, EndedBy j z) : ∃ b, waitCompletion runner timeout t0 clock (n + 1) jobs failed = some b := by
  cases h : waitCompletion runner timeout t0 clock (n + 1) jobs failed with
  | some b => exact ⟨b, rfl⟩
  | none =>
    obtain ⟨_, h2⟩ := loop_none runner timeout t0 clock ht jobs failed (n + 1) 0 _ _ (seen_start t0 clock jobs failed) h
    exfalso
    apply h2
    intro j hj
    refine ended_mono ?_ (hz j hj)
    rw [Nat.zero_add]
    show z ≤ (clock n).u
    have := (clock_late ht n).1
    linarith

/-- C83: without a timeout argument the answer is exact when every simulation ends in time: if each has a timeout that it keeps by a margin larger
than the time from the look to the comparison, the call returns True exactly when all succeeded and none had failed before. -/
theorem C83_exact (runner : Option ℚ) (t0 z δ : ℚ) (clock : Nat → Turn) (ht : Ticks t0 clock) (n : Nat) (hn : z ≤ t0 + n) (jobs : List Job) (failed : Nat)
    (hz : ∀ j ∈ jobs, EndedBy j z) (hδ : ∀ k, (clock k).c - (clock k).u ≤ δ)
    (hk : ∀ j ∈ jobs, ∀ u d e, Exceeds runner u j d → j.stop = some e → e + δ ≤ d) :
    ∃ b, waitCompletion runner none t0 clock (n + 1) jobs failed = some b ∧ (b = true ↔ failed = 0 ∧ ∀ j ∈ jobs, j.ok = true) := by
  obtain ⟨b, hb⟩ := C83_ends runner none t0 z clock ht n hn jobs failed hz
  refine ⟨b, hb, ?_⟩
  obtain ⟨m, _, _, h3⟩ := C83_answer runner none t0 clock ht (n + 1) jobs failed b hb
  rcases h3 with ⟨_, h5⟩ | ⟨_, hg, _⟩
  · exact h5
  · exfalso
    rcases hg with ⟨T, hT, _⟩ | ⟨_, ⟨j, hj, hne, d, hd⟩, h2⟩
    · cases hT
    · obtain ⟨_, e, he, _⟩ := hz j hj
      have h6 := h2 j hj hne d hd
      have h7 := hk j hj _ d e hd he
      have h8 : (clock m).u < e := by
        by_contra hc
        obtain ⟨s, _, hs, hsu, _⟩ := hd
        exact hne ⟨⟨s, hs, hsu⟩, e, he, not_lt.mp hc⟩
      have := hδ m
      linarith

/-! ### Samples and limits -/

/-- A clock with a turn every second. -/
def everySecond (k : Nat) : Turn := ⟨k + 1, k + 1⟩

theorem everySecond_ticks : Ticks 0 everySecond := ⟨by simp [everySecond], fun k => le_refl _, fun k => by simp [everySecond]⟩

def job (stop : ℚ) (ok : Bool) : Job := ⟨some 0, some stop, ok, some 600⟩

theorem C83_sample : waitCompletion (some 600) none 0 everySecond 10 [job 3 true, job 5 true] 0 = some true ∧
    waitCompletion (some 600) none 0 everySecond 10 [job 3 false, job 5 true] 0 = some false ∧
    waitCompletion (some 600) (some 4) 0 everySecond 10 [job 3 true, job 8 true] 0 = some false ∧
    waitCompletion (some 600) none 0 everySecond 4 [job 3 true, job 8 true] 0 = none := by decide +kernel

/-- Limit: the timeout is not restarted when a simulation is completed, as the documentation says: with a timeout of 4 seconds, simulations that end after
3 and 5 seconds are not awaited. -/
theorem C83_timeout_not_restarted : waitCompletion none (some 4) 0 everySecond 10 [job 3 true, job 5 true] 0 = some false := by decide +kernel

/-- Limit: False can also mean that all simulations have succeeded: when the last one ends in the turn in which the timeout is over. -/
theorem C83_false_although_all_succeeded : waitCompletion none (some (9/2)) 0 everySecond 10 [job 3 true, job (24/5) true] 0 = some false ∧
    ∀ j ∈ [job 3 true, job (24/5) true], EndedBy j (everySecond 4).u ∧ j.ok = true := by
  refine ⟨by decide +kernel, ?_⟩
  intro j hj
  rw [List.mem_cons, List.mem_singleton] at hj
  rcases hj with rfl | rfl
  · exact ⟨⟨⟨0, rfl, by norm_num [everySecond]⟩, 3, rfl, by norm_num [everySecond]⟩, rfl⟩
  · exact ⟨⟨⟨0, rfl, by norm_num [everySecond]⟩, 24/5, rfl, by norm_num [everySecond]⟩, rfl⟩

/-- Limit: a failure before the call makes the answer False. -/
theorem C83_earlier_failure : waitCompletion (some 600) none 0 everySecond 10 [job 3 true] 1 = some false := by decide +kernel

/-- Limit: `abort_all_on_timeout` stops nothing: no process has the empty name it looks for. -/
theorem C83_abort_stops_nothing (processes : List (List Char)) (h : ∀ p ∈ processes, p ≠ []) : killed processes = [] := by
  unfold killed baseProcessName
  rw [List.filter_eq_nil_iff]
  intro p hp
  simp [h p hp]

end Props.Wait
