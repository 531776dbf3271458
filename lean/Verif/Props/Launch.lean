import Verif.Model.Launch
import Verif.Props.Wait
import Verif.Props.Runner
import Mathlib.Tactic.Linarith
import Mathlib.Tactic.Push
import Mathlib.Data.Nat.Cast.Order.Basic
/-
C100: waiting for a free place.
-/
namespace Props.Launch
open Model.Launch
open Model.Wait (Job update)
open Props.Wait (EndedBy done_iff ended_mono)

/-- The number of simulations that are still running at moment `u`. -/
noncomputable def running (jobs : List Job) (u : ℚ) : Nat := by
  classical exact (jobs.filter (fun j => ¬ EndedBy j u)).length

/-- The clock does not go back, and there is a pause of a tenth of a second between two turns. -/
structure Ticks (t0 : ℚ) (clock : Nat → Turn) : Prop where
  first : t0 ≤ (clock 0).test
  order : ∀ k, (clock k).test ≤ (clock k).u
  pause : ∀ k, (clock k).u + 1 / 10 ≤ (clock (k + 1)).test

/-- The simulation can be started in turn `k`. -/
def Free (parallel : Nat) (wait : Bool) (jobs : List Job) (u : ℚ) : Prop := wait = false ∨ running jobs u < parallel

theorem running_eq (jobs : List Job) (u : ℚ) : running jobs u = (jobs.filter (fun j => !j.done u)).length := by
  classical
  unfold running
  congr 1
  apply List.filter_congr
  intro j _
  have := done_iff j u
  by_cases h : EndedBy j u
  · simp [h, this.2 h]
  · have : j.done u = false := by
      cases hd : j.done u with
      | false => rfl
      | true => exact absurd (this.1 hd) h
    simp [h, this]

theorem filter_later (jobs : List Job) (u v : ℚ) (h : u ≤ v) :
    (jobs.filter (fun j => !j.done u)).filter (fun j => !j.done v) = jobs.filter (fun j => !j.done v) := by
  rw [List.filter_filter]
  apply List.filter_congr
  intro j _
  cases hv : j.done v with
  | true => simp
  | false =>
    have : j.done u = false := by
      cases hu : j.done u with
      | false => rfl
      | true => rw [Props.Wait.done_mono h hu] at hv; cases hv
    simp [this]

theorem u_mono {t0 : ℚ} {clock : Nat → Turn} (ht : Ticks t0 clock) (k : Nat) : (clock k).u ≤ (clock (k + 1)).u := by
  have := ht.order (k + 1); have := ht.pause k; linarith

/-- The loop from turn `k` on, when `active` are the simulations not found ended by then. -/
theorem loop_spec (parallel : Nat) (wait : Bool) (t0 limit : ℚ) (clock : Nat → Turn) (ht : Ticks t0 clock) (jobs : List Job) :
    ∀ (n k : Nat) (active : List Job),
      (active.filter (fun j => !j.done (clock k).u) = jobs.filter (fun j => !j.done (clock k).u)) →
      (∀ m, loop parallel wait t0 limit clock n k active = some (.started m) ↔
        k ≤ m ∧ m < k + n ∧ (∀ i, k ≤ i → i ≤ m → (clock i).test < t0 + limit) ∧
        (∀ i, k ≤ i → i < m → ¬ Free parallel wait jobs (clock i).u) ∧ Free parallel wait jobs (clock m).u) ∧
      (loop parallel wait t0 limit clock n k active = some .gaveUp ↔
        ∃ m, k ≤ m ∧ m < k + n ∧ t0 + limit ≤ (clock m).test ∧ (∀ i, k ≤ i → i < m → (clock i).test < t0 + limit ∧ ¬ Free parallel wait jobs (clock i).u)) := by
  intro n
  induction n with
  | zero =>
    intro k active _
    refine ⟨fun m => ?_, ?_⟩
    · constructor
      · intro h; cases h
      · rintro ⟨h1, h2, _⟩; omega
    · constructor
      · intro h; cases h
      · rintro ⟨m, h1, h2, _⟩; omega
  | succ n ih =>
    intro k active hact
    unfold loop
    by_cases hl : (clock k).test - t0 < limit
    · have hl' : (clock k).test < t0 + limit := by linarith
      rw [if_pos hl]
      by_cases hf : Free parallel wait jobs (clock k).u
      · have e : (if wait = false then some (End.started k) else
            let r := update (clock k).u active 0
            if r.1.length < parallel then some (.started k) else loop parallel wait t0 limit clock n (k + 1) r.1) = some (.started k) := by
          by_cases hw : wait = false
          · rw [if_pos hw]
          · rw [if_neg hw]
            have : (update (clock k).u active 0).1.length < parallel := by
              rcases hf with hf | hf
              · exact absurd hf hw
              · rw [running_eq, ← hact] at hf; exact hf
            simp only [this, if_true]
        rw [e]
        refine ⟨fun m => ?_, ?_⟩
        · constructor
          · intro h
            injection h with h; injection h with h
            subst h
            refine ⟨Nat.le_refl _, by omega, ?_, ?_, hf⟩
            · intro i h1 h2
              obtain rfl : i = k := by omega
              exact hl'
            · intro i h1 h2; omega
          · rintro ⟨h1, h2, h3, h4, h5⟩
            by_cases hm : m = k
            · rw [hm]
            · exact absurd hf (h4 k (Nat.le_refl _) (by omega))
        · constructor
          · intro h; injection h with h; cases h
          · rintro ⟨m, h1, h2, h3, h4⟩
            by_cases hm : m = k
            · subst hm; linarith
            · exact absurd hf (h4 k (Nat.le_refl _) (by omega)).2
      · have hw : wait ≠ false := fun h => hf (Or.inl h)
        have hn : ¬ (update (clock k).u active 0).1.length < parallel := by
          intro h
          apply hf
          right
          rw [running_eq, ← hact]; exact h
        rw [if_neg hw]
        simp only [hn, if_false]
        have := ih (k + 1) (update (clock k).u active 0).1 (by
          unfold update
          simp only
          rw [filter_later _ _ _ (u_mono ht k), ← filter_later active _ _ (u_mono ht k), hact, filter_later _ _ _ (u_mono ht k)])
        refine ⟨fun m => ?_, ?_⟩
        · rw [this.1 m]
          constructor
          · rintro ⟨h1, h2, h3, h4, h5⟩
            refine ⟨by omega, by omega, ?_, ?_, h5⟩
            · intro i a b
              by_cases hi : i = k
              · subst hi; exact hl'
              · exact h3 i (by omega) b
            · intro i a b
              by_cases hi : i = k
              · subst hi; exact hf
              · exact h4 i (by omega) b
          · rintro ⟨h1, h2, h3, h4, h5⟩
            have hm : m ≠ k := by rintro rfl; exact hf h5
            exact ⟨by omega, by omega, fun i a b => h3 i (by omega) b, fun i a b => h4 i (by omega) b, h5⟩
        · rw [this.2]
          constructor
          · rintro ⟨m, h1, h2, h3, h4⟩
            refine ⟨m, by omega, by omega, h3, ?_⟩
            intro i a b
            by_cases hi : i = k
            · subst hi; exact ⟨hl', hf⟩
            · exact h4 i (by omega) b
          · rintro ⟨m, h1, h2, h3, h4⟩
            have hm : m ≠ k := by rintro rfl; linarith
            exact ⟨m, by omega, by omega, h3, fun i a b => h4 i (by omega) b⟩
    · have hl' : t0 + limit ≤ (clock k).test := by push Not at hl; linarith
      rw [if_neg hl]
      refine ⟨fun m => ?_, ?_⟩
      · constructor
        · intro h; injection h with h; cases h
        · rintro ⟨h1, h2, h3, _⟩
          have := h3 k (Nat.le_refl _) h1
          linarith
      · constructor
        · intro _; exact ⟨k, Nat.le_refl _, by omega, hl', fun i a b => by omega⟩
        · intro _; rfl

/-- The timeout that counts: that of the call, else that of the runner. -/
def Timeout (runner timeout : Option ℚ) (T : ℚ) : Prop := timeout = some T ∨ (timeout = none ∧ runner = some T)

theorem timeout_or {runner timeout : Option ℚ} {T : ℚ} (h : Timeout runner timeout T) : timeout.or runner = some T := by
  rcases h with h | ⟨h1, h2⟩
  · rw [h]; rfl
  · rw [h1, h2]; rfl

/-- C100: the simulation is started in the first turn in which fewer than `parallel` simulations are still running (in the first of all if
it need not wait), provided that this turn begins earlier than a second after the timeout. -/
theorem C100_started (parallel : Nat) (wait : Bool) (runner timeout : Option ℚ) (T : ℚ) (hT : Timeout runner timeout T) (t0 : ℚ) (clock : Nat → Turn)
    (ht : Ticks t0 clock) (n : Nat) (jobs : List Job) (m : Nat) :
    run parallel wait runner timeout t0 clock n jobs = some (.started m) ↔
      m < n ∧ (∀ i ≤ m, (clock i).test < t0 + T + 1) ∧ (∀ i < m, ¬ (wait = false ∨ running jobs (clock i).u < parallel)) ∧
        (wait = false ∨ running jobs (clock m).u < parallel) := by
  unfold run
  rw [timeout_or hT]
  simp only
  rw [(loop_spec parallel wait t0 (T + 1) clock ht jobs n 0 jobs rfl).1 m]
  constructor
  · rintro ⟨_, h2, h3, h4, h5⟩
    exact ⟨by omega, fun i hi => by have := h3 i (Nat.zero_le _) hi; linarith, fun i hi => h4 i (Nat.zero_le _) hi, h5⟩
  · rintro ⟨h2, h3, h4, h5⟩
    exact ⟨Nat.zero_le _, by omega, fun i _ hi => by have := h3 i hi; linarith, fun i _ hi => h4 i hi, h5⟩

/-- C100: the call gives up exactly if a second after the timeout has passed and there was no free place in any turn before. -/
theorem C100_gave_up (parallel : Nat) (wait : Bool) (runner timeout : Option ℚ) (T : ℚ) (hT : Timeout runner timeout T) (t0 : ℚ) (clock : Nat → Turn)
    (ht : Ticks t0 clock) (n : Nat) (jobs : List Job) :
    run parallel wait runner timeout t0 clock n jobs = some .gaveUp ↔
      ∃ m < n, t0 + T + 1 ≤ (clock m).test ∧ ∀ i < m, (clock i).test < t0 + T + 1 ∧ ¬ (wait = false ∨ running jobs (clock i).u < parallel) := by
  unfold run
  rw [timeout_or hT]
  simp only
  rw [(loop_spec parallel wait t0 (T + 1) clock ht jobs n 0 jobs rfl).2]
  constructor
  · rintro ⟨m, _, h2, h3, h4⟩
    exact ⟨m, by omega, by linarith, fun i hi => ⟨by have := (h4 i (Nat.zero_le _) hi).1; linarith, (h4 i (Nat.zero_le _) hi).2⟩⟩
  · rintro ⟨m, h2, h3, h4⟩
    exact ⟨m, Nat.zero_le _, by omega, by linarith, fun i _ hi => ⟨by have := (h4 i hi).1; linarith, (h4 i hi).2⟩⟩

theorem clock_late {t0 : ℚ} {clock : Nat → Turn} (h : Ticks t0 clock) : ∀ k : Nat, t0 + (k : ℚ) / 10 ≤ (clock k).test := by
  intro k
  induction k with
  | zero => simpa using h.first
  | succ k ih =>
    have h1 := h.order k
    have h2 := h.pause k
    push_cast
    linarith

/-- C100: the call always ends, after at most ten turns per second of the timeout (and of the second added to it). -/
theorem C100_ends (parallel : Nat) (wait : Bool) (runner timeout : Option ℚ) (T : ℚ) (hT : Timeout runner timeout T) (t0 : ℚ) (clock : Nat → Turn)
    (ht : Ticks t0 clock) (n : Nat) (hn : 10 * (T + 1) ≤ n) (jobs : List Job) :
    run parallel wait runner timeout t0 clock (n + 1) jobs = some .gaveUp ∨ ∃ m, run parallel wait runner timeout t0 clock (n + 1) jobs = some (.started m) := by
  classical
  have hlast : t0 + T + 1 ≤ (clock n).test := by
    have := clock_late ht n
    linarith
  let P : Nat → Prop := fun i => t0 + T + 1 ≤ (clock i).test ∨ (wait = false ∨ running jobs (clock i).u < parallel)
  have hex : ∃ i, P i := ⟨n, Or.inl hlast⟩
  have h0 := Nat.find_spec hex
  have hle : Nat.find hex ≤ n := Nat.find_min' hex (Or.inl hlast)
  have hmin : ∀ i, i < Nat.find hex → ¬ P i := fun i hi => Nat.find_min hex hi
  by_cases hc : t0 + T + 1 ≤ (clock (Nat.find hex)).test
  · left
    rw [C100_gave_up parallel wait runner timeout T hT t0 clock ht]
    refine ⟨Nat.find hex, by omega, hc, fun i hi => ?_⟩
    have := hmin i hi
    simp only [P, not_or] at this
    exact ⟨lt_of_not_ge this.1, fun h => h.elim this.2.1 this.2.2⟩
  · right
    refine ⟨Nat.find hex, ?_⟩
    rw [C100_started parallel wait runner timeout T hT t0 clock ht]
    refine ⟨by omega, fun i hi => ?_, fun i hi => ?_, ?_⟩
    · by_cases h : i = Nat.find hex
      · rw [h]; exact lt_of_not_ge hc
      · have := hmin i (by omega)
        simp only [P, not_or] at this
        exact lt_of_not_ge this.1
    · have := hmin i hi
      simp only [P, not_or] at this
      exact fun h => h.elim this.2.1 this.2.2
    · exact h0.resolve_left hc

/-- C100: a simulation that need not wait is started at once. -/
theorem C100_at_once (parallel : Nat) (runner timeout : Option ℚ) (T : ℚ) (hT : Timeout runner timeout T) (t0 : ℚ) (clock : Nat → Turn)
    (ht : Ticks t0 clock) (n : Nat) (jobs : List Job) (h : (clock 0).test < t0 + T + 1) :
    run parallel false runner timeout t0 clock (n + 1) jobs = some (.started 0) := by
  rw [C100_started parallel false runner timeout T hT t0 clock ht]
  refine ⟨by omega, fun i hi => ?_, fun i hi => by omega, Or.inl rfl⟩
  obtain rfl : i = 0 := by omega
  exact h

/-- C100: a run number is used up in every case; a task exists, and is one of the active ones, exactly if the simulation was started. -/
theorem C100_state (s : Model.Runner.St) (name : List Char) (explicit : Bool) (e : End) :
    (runState s name explicit e).runno = s.runno + 1 ∧
    ((∃ k, e = .started k) → (runState s name explicit e).count = s.count + 1 ∧ (runState s name explicit e).active = s.active ++ [s.count] ∧
      ((runState s name explicit e).task s.count).runno = s.runno + 1) ∧
    ((∀ k, e ≠ .started k) → (runState s name explicit e).count = s.count ∧ (runState s name explicit e).active = s.active) ∧
    (runState s name explicit e).completed = s.completed ∧ (runState s name explicit e).okSim = s.okSim ∧ (runState s name explicit e).failSim = s.failSim := by
  cases e with
  | started k => refine ⟨rfl, fun _ => ⟨rfl, rfl, ?_⟩, fun h => absurd rfl (h k), rfl, rfl, rfl⟩; simp [runState, Model.Runner.launch, Model.Runner.spawn, Model.Runner.prepare]
  | gaveUp => exact ⟨rfl, (fun ⟨k, h⟩ => by cases h), fun _ => ⟨rfl, rfl⟩, rfl, rfl, rfl⟩
  | typeErr => exact ⟨rfl, (fun ⟨k, h⟩ => by cases h), fun _ => ⟨rfl, rfl⟩, rfl, rfl, rfl⟩

/-- C100 limit: without any timeout (the documentation allows None) no simulation is ever started: the netlist is written, a run number is used up, and the call
is a TypeError. -/
theorem C100_limit_no_timeout (parallel : Nat) (wait : Bool) (t0 : ℚ) (clock : Nat → Turn) (n : Nat) (jobs : List Job) :
    run parallel wait none none t0 clock n jobs = some .typeErr := rfl

/-- C100 limit: run_now without any timeout starts the simulation, but it is lost for the runner, in every state the runner can get into: it is neither active nor completed, and counted nowhere. -/
theorem C100_limit_run_now_lost (s : Model.Runner.St) (name : List Char) (explicit : Bool) {accept : Nat → Bool} {itWait : Bool} {parallel : Nat} {outs : List Model.Runner.Out}
    (hr : Model.Runner.Reach accept itWait parallel Props.Runner.AnySchedule s outs) :
    (runNowNoTimeout s name explicit).count = s.count + 1 ∧ ((runNowNoTimeout s name explicit).task s.count).phase = .alive ∧
    s.count ∉ (runNowNoTimeout s name explicit).active ++ (runNowNoTimeout s name explicit).completed ∧
    (runNowNoTimeout s name explicit).okSim = s.okSim ∧ (runNowNoTimeout s name explicit).failSim = s.failSim := by
  refine ⟨rfl, ?_, ?_, rfl, rfl⟩
  · simp [runNowNoTimeout, Model.Runner.spawn, Model.Runner.prepare]
  · intro hm
    exact absurd (Lemmas.Runner.placed_lt (Lemmas.Runner.reach_inv hr).1 s.count (List.mem_append.mp hm)) (Nat.lt_irrefl _)

/-- Turns every tenth of a second. -/
def tenths (k : Nat) : Turn := ⟨k / 10, k / 10⟩
theorem tenths_ticks : Ticks 0 tenths := ⟨by simp [tenths], fun k => le_refl _, fun k => by simp only [tenths]; push_cast; linarith⟩

def job (start stop : ℚ) : Job := ⟨some start, some stop, true, none⟩

/-- C100 sample: two places, both taken until 0.25 s and 0.45 s. -/
theorem C100_sample : run 2 true (some 600) none 0 tenths 20 [job 0 (1/4), job 0 (9/20)] = some (.started 3) ∧
    run 2 false (some 600) none 0 tenths 20 [job 0 (1/4), job 0 (9/20)] = some (.started 0) ∧
    run 1 true (some 600) none 0 tenths 20 [job 0 (1/4), job 0 (9/20)] = some (.started 5) ∧
    run 1 true (some 600) (some (-4/5)) 0 tenths 20 [job 0 (1/4), job 0 (9/20)] = some .gaveUp ∧
    Timeout (some 600) none 600 ∧ Timeout (some 600) (some (-4/5)) (-4/5) := by
  refine ⟨?_, ?_, ?_, ?_, Or.inr ⟨rfl, rfl⟩, Or.inl rfl⟩ <;> decide +kernel

end Props.Launch
