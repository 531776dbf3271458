import Verif.Model.Runner
import Mathlib.Data.List.Perm.Basic
namespace Lemmas.Runner
open Model.Runner

variable {accept : Nat → Bool} {itWait : Bool}

/-- The step function, as a list of cases. -/
inductive Trans (accept : Nat → Bool) (itWait : Bool) (s : St) : Act → St → Option Out → Prop
  | begin t (hc : t < s.count) (hp : (s.task t).phase = .alive) :
      Trans accept itWait s (.begin t) (setTask s t (fun x => { x with phase := .running })) none
  | simReturns t rc (hc : t < s.count) (hp : (s.task t).phase = .running) :
      Trans accept itWait s (.simReturns t rc) (setTask s t (fun x => { x with phase := .simDone, retcode := rc })) none
  | die t (hc : t < s.count) (hp : (s.task t).phase = .simDone) :
      Trans accept itWait s (.die t) (setTask s t (fun x => { x with phase := .dead })) none
  | callRun name e w (hp : s.pc = .idle) : Trans accept itWait s (.callRun name e w) { prepare s name e with pc := .runLoop w } none
  | callRunBad name (hp : s.pc = .idle) : Trans accept itWait s (.callRunBad name) (prepare s name true) none
  | callRunNow name e (hp : s.pc = .idle) :
      Trans accept itWait s (.callRunNow name e) { spawn (prepare s name e) with pc := .joining s.count } none
  | callUpdate (hp : s.pc = .idle) : Trans accept itWait s .callUpdate { s with pc := .upd 0 .toIdle } none
  | callWait (hp : s.pc = .idle) : Trans accept itWait s .callWait { s with pc := .upd 0 .toWaitTest } none
  | callIter (hp : s.pc = .idle) : Trans accept itWait s .callIter { s with counter := 0 } (some .iterStarted)
  | callNext (hp : s.pc = .idle) : Trans accept itWait s .callNext { s with pc := .upd 0 .toIter } none
  | runWait (hp : s.pc = .runLoop true) : Trans accept itWait s .tick { s with pc := .upd 0 .toRunTest } none
  | runNoWait (hp : s.pc = .runLoop false) : Trans accept itWait s .tick (launch s).1 (some (.launched s.count))
  | runLaunch (hp : s.pc = .runTest) (hl : s.active.length < s.parallel) :
      Trans accept itWait s .tick (launch s).1 (some (.launched s.count))
  | runSleep (hp : s.pc = .runTest) (hl : ¬ s.active.length < s.parallel) :
      Trans accept itWait s .tick { s with pc := .runLoop true } none
  | updDone i k (hp : s.pc = .upd i k) (hl : s.active.length ≤ i) : Trans accept itWait s .tick { s with pc := contPC k } none
  | updSkip i k (hp : s.pc = .upd i k) (hl : i < s.active.length) (hd : (s.task s.active[i]).phase ≠ .dead) :
      Trans accept itWait s .tick { s with pc := .upd (i + 1) k } none
  | updMove i k (hp : s.pc = .upd i k) (hl : i < s.active.length) (hd : (s.task s.active[i]).phase = .dead) :
      Trans accept itWait s .tick { countResult s s.active[i] with active := s.active.eraseIdx i, completed := s.completed ++ [s.active[i]], pc := .upd i k } none
  | joined t (hp : s.pc = .joining t) (hd : (s.task t).phase = .dead) :
      Trans accept itWait s .tick { countResult s t with completed := s.completed ++ [t], pc := .idle } (some (.runNowReturns t))
  | waitMore (hp : s.pc = .waitTest) (hl : s.active.length > 0) : Trans accept itWait s .tick { s with pc := .upd 0 .toWaitCheck } none
  | waitEnd (hp : s.pc = .waitTest) (hl : s.active = []) :
      Trans accept itWait s .tick { s with pc := .idle } (some (.waitReturns (s.failSim == 0)))
  | waitLoop (hp : s.pc = .waitCheck) : Trans accept itWait s .tick { s with pc := .waitTest } none
  | iterYield (hp : s.pc = .iterTest) (hl : s.counter < s.completed.length) (ha : accept s.completed[s.counter] = true)
      (hr : (s.task s.completed[s.counter]).retcode = 0) :
      Trans accept itWait s .tick { s with counter := s.counter + 1, pc := .idle }
        (some (.yields s.completed[s.counter]))
  | iterSkip (hp : s.pc = .iterTest) (hl : s.counter < s.completed.length)
      (hn : ¬ (accept s.completed[s.counter] = true ∧ (s.task s.completed[s.counter]).retcode = 0)) :
      Trans accept itWait s .tick { s with counter := s.counter + 1, pc := .upd 0 .toIter } none
  | iterStop (hp : s.pc = .iterTest) (hl : s.completed.length ≤ s.counter) (ha : s.active = [] ∨ itWait = false) :
      Trans accept itWait s .tick { s with pc := .idle } (some .stopIteration)
  | iterSleep (hp : s.pc = .iterTest) (hl : s.completed.length ≤ s.counter) (ha : ¬ (s.active = [] ∨ itWait = false)) :
      Trans accept itWait s .tick { s with pc := .upd 0 .toIter } none
  | launchTimeout w (hp : s.pc = .runLoop w) : Trans accept itWait s .timeout { s with pc := .idle } (some .launchTimeout)
  | joinTimeout t (hp : s.pc = .joining t) :
      Trans accept itWait s .timeout { countResult s t with completed := s.completed ++ [t], pc := .idle } (some (.runNowReturns t))
  | waitTimeout (hp : s.pc = .waitCheck) : Trans accept itWait s .timeout { s with pc := .idle } (some (.waitReturns false))
  | iterTimeout (hp : s.pc = .iterTest) (ha : s.active ≠ []) :
      Trans accept itWait s .timeout { s with pc := .idle } (some .iterTimeout)

theorem step_trans (s : St) (a : Act) (s' : St) (o : Option Out)
    (h : step accept itWait s a = some (s', o)) : Trans accept itWait s a s' o := by
  cases a with
  | begin t => simp only [step] at h; split at h <;> simp at h; rename_i hc; obtain ⟨rfl, rfl⟩ := h; exact .begin t hc.1 hc.2
  | simReturns t rc => simp only [step] at h; split at h <;> simp at h; rename_i hc; obtain ⟨rfl, rfl⟩ := h; exact .simReturns t rc hc.1 hc.2
  | die t => simp only [step] at h; split at h <;> simp at h; rename_i hc; obtain ⟨rfl, rfl⟩ := h; exact .die t hc.1 hc.2
  | callRun n e w => simp only [step] at h; split at h <;> simp at h; rename_i hc; obtain ⟨rfl, rfl⟩ := h; exact .callRun n e w hc
  | callRunBad n => simp only [step] at h; split at h <;> simp at h; rename_i hc; obtain ⟨rfl, rfl⟩ := h; exact .callRunBad n hc
  | callRunNow n e => simp only [step] at h; split at h <;> simp at h; rename_i hc; obtain ⟨rfl, rfl⟩ := h; exact .callRunNow n e hc
  | callUpdate => simp only [step] at h; split at h <;> simp at h; rename_i hc; obtain ⟨rfl, rfl⟩ := h; exact .callUpdate hc
  | callWait => simp only [step] at h; split at h <;> simp at h; rename_i hc; obtain ⟨rfl, rfl⟩ := h; exact .callWait hc
  | callIter => simp only [step] at h; split at h <;> simp at h; rename_i hc; obtain ⟨rfl, rfl⟩ := h; exact .callIter hc
  | callNext => simp only [step] at h; split at h <;> simp at h; rename_i hc; obtain ⟨rfl, rfl⟩ := h; exact .callNext hc
  | tick =>
    simp only [step] at h
    split at h
    · simp at h
    · rename_i w hp
      cases w
      · simp only [Bool.false_eq_true, if_false, Option.some.injEq] at h
        rw [show s' = (launch s).1 by rw [h], show o = (launch s).2 by rw [h]]; exact .runNoWait hp
      · simp at h; obtain ⟨rfl, rfl⟩ := h; exact .runWait hp
    · rename_i hp
      split at h
      · rename_i hl
        simp only [Option.some.injEq] at h
        rw [show s' = (launch s).1 by rw [h], show o = (launch s).2 by rw [h]]; exact .runLaunch hp hl
      · rename_i hl; simp at h; obtain ⟨rfl, rfl⟩ := h; exact .runSleep hp hl
    · rename_i i k hp
      simp only [Option.some.injEq, Prod.mk.injEq] at h
      obtain ⟨rfl, rfl⟩ := h
      unfold updIter
      by_cases hl : i < s.active.length
      · rw [List.getElem?_eq_getElem hl]
        by_cases hd : (s.task s.active[i]).phase = .dead
        · simp only [hd, ne_eq, not_true_eq_false, if_false]
          have e1 : (countResult s s.active[i]).active = s.active := by unfold countResult; split <;> rfl
          have e2 : (countResult s s.active[i]).completed = s.completed := by unfold countResult; split <;> rfl
          rw [e1, e2]
          exact .updMove i k hp hl hd
        · simp only [hd, ne_eq, not_false_eq_true, if_true]
          exact .updSkip i k hp hl hd
      · rw [List.getElem?_eq_none (by omega)]
        exact .updDone i k hp (by omega)
    · rename_i t hp
      split at h <;> simp at h; rename_i hd; obtain ⟨rfl, rfl⟩ := h; exact .joined t hp hd
    · rename_i hp
      split at h
      · rename_i hl; simp at h; obtain ⟨rfl, rfl⟩ := h; exact .waitMore hp hl
      · rename_i hl; simp only [Option.some.injEq, Prod.mk.injEq] at h; obtain ⟨rfl, rfl⟩ := h
        exact .waitEnd hp (List.eq_nil_of_length_eq_zero (by omega))
    · rename_i hp; simp at h; obtain ⟨rfl, rfl⟩ := h; exact .waitLoop hp
    · rename_i hp
      simp only [Option.some.injEq] at h
      unfold iterBody at h
      by_cases hl : s.counter < s.completed.length
      · rw [List.getElem?_eq_getElem hl] at h
        simp only at h
        split at h
        · rename_i ha
          split at h
          · rename_i hr; simp only [Prod.mk.injEq] at h; obtain ⟨rfl, rfl⟩ := h; exact .iterYield hp hl ha hr
          · rename_i hr; simp only [Prod.mk.injEq] at h; obtain ⟨rfl, rfl⟩ := h; exact .iterSkip hp hl (fun c => hr c.2)
        · rename_i ha; simp only [Prod.mk.injEq] at h; obtain ⟨rfl, rfl⟩ := h; exact .iterSkip hp hl (fun c => ha c.1)
      · rw [List.getElem?_eq_none (by omega)] at h
        simp only at h
        split at h
        · rename_i ha; simp only [Prod.mk.injEq] at h; obtain ⟨rfl, rfl⟩ := h; exact .iterStop hp (by omega) ha
        · rename_i ha; simp only [Prod.mk.injEq] at h; obtain ⟨rfl, rfl⟩ := h; exact .iterSleep hp (by omega) ha
  | timeout =>
    simp only [step] at h
    split at h
    · rename_i w hp; simp at h; obtain ⟨rfl, rfl⟩ := h; exact .launchTimeout w hp
    · rename_i t hp; simp at h; obtain ⟨rfl, rfl⟩ := h; exact .joinTimeout t hp
    · rename_i hp; simp at h; obtain ⟨rfl, rfl⟩ := h; exact .waitTimeout hp
    · rename_i hp
      split at h <;> simp at h; rename_i hc; obtain ⟨rfl, rfl⟩ := h; exact .iterTimeout hp hc.2.1
    · simp at h

/-- The task a pending run_now is waiting for. -/
def pending : PC → List Nat
  | .joining t => [t]
  | _ => []

@[simp] theorem cr_active (s : St) (t : Nat) : (countResult s t).active = s.active := by unfold countResult; split <;> rfl
@[simp] theorem cr_completed (s : St) (t : Nat) : (countResult s t).completed = s.completed := by unfold countResult; split <;> rfl
@[simp] theorem cr_task (s : St) (t : Nat) : (countResult s t).task = s.task := by unfold countResult; split <;> rfl
@[simp] theorem cr_count (s : St) (t : Nat) : (countResult s t).count = s.count := by unfold countResult; split <;> rfl
@[simp] theorem cr_runno (s : St) (t : Nat) : (countResult s t).runno = s.runno := by unfold countResult; split <;> rfl
@[simp] theorem cr_issued (s : St) (t : Nat) : (countResult s t).issued = s.issued := by unfold countResult; split <;> rfl
@[simp] theorem cr_counter (s : St) (t : Nat) : (countResult s t).counter = s.counter := by unfold countResult; split <;> rfl
@[simp] theorem cr_parallel (s : St) (t : Nat) : (countResult s t).parallel = s.parallel := by unfold countResult; split <;> rfl
theorem cr_ok (s : St) (t : Nat) : (countResult s t).okSim = s.okSim + if (s.task t).retcode = 0 then 1 else 0 := by
  unfold countResult; split <;> simp
theorem cr_fail (s : St) (t : Nat) : (countResult s t).failSim = s.failSim + if (s.task t).retcode = 0 then 0 else 1 := by
  unfold countResult; split <;> simp

@[simp] theorem pending_joining (t : Nat) : pending (.joining t) = [t] := rfl
@[simp] theorem pending_idle : pending .idle = [] := rfl
@[simp] theorem pending_runLoop (w : Bool) : pending (.runLoop w) = [] := rfl
@[simp] theorem pending_runTest : pending .runTest = [] := rfl
@[simp] theorem pending_upd (i : Nat) (k : Cont) : pending (.upd i k) = [] := rfl
@[simp] theorem pending_waitTest : pending .waitTest = [] := rfl
@[simp] theorem pending_waitCheck : pending .waitCheck = [] := rfl
@[simp] theorem pending_iterTest : pending .iterTest = [] := rfl
@[simp] theorem pending_contPC (k : Cont) : pending (contPC k) = [] := by cases k <;> rfl

/-- Every task is in exactly one place. -/
def Placed (s : St) : Prop :=
  List.Perm (s.active ++ s.completed ++ pending s.pc) (List.range s.count)

theorem perm_launch {α : Type} {A C R : List α} {x : α} (h : List.Perm (A ++ C) R) :
    List.Perm (A ++ (x :: C)) (R ++ [x]) := by
  refine List.Perm.trans ?_ (h.append_right [x])
  rw [List.append_assoc]
  exact List.Perm.append_left _ (List.perm_append_comm (l₁ := [x]))

theorem perm_move {α : Type} {A C R : List α} (i : Nat) (hl : i < A.length) (h : List.Perm (A ++ C) R) :
    List.Perm (A.eraseIdx i ++ (C ++ [A[i]])) R := by
  refine List.Perm.trans ?_ h
  rw [← List.append_assoc]
  refine List.perm_append_comm.trans ?_
  rw [← List.append_assoc]
  exact List.Perm.append_right C (List.getElem_cons_eraseIdx_perm hl)

theorem placed_step {s a s' o} (h : Trans accept itWait s a s' o) (hi : Placed s) : Placed s' := by
  unfold Placed at *
  cases h <;> (try (rename_i hp; rw [hp] at hi)) <;>
    simp_all [setTask, prepare, spawn, launch, List.range_succ]
  case callRunNow => rw [← List.append_assoc]; exact hi.append_right _
  case runNoWait => exact perm_launch hi
  case runLaunch => exact perm_launch hi
  case updMove i k hl hd hp => exact perm_move i hl hi

/-- okSim + failSim = number of completed tasks. -/
theorem counts_step {s a s' o} (h : Trans accept itWait s a s' o)
    (hi : s.okSim + s.failSim = s.completed.length) : s'.okSim + s'.failSim = s'.completed.length := by
  cases h <;> simp_all [setTask, prepare, spawn, launch]
  case updMove => rw [cr_ok, cr_fail]; split <;> omega
  case joined => rw [cr_ok, cr_fail]; split <;> omega
  case joinTimeout => rw [cr_ok, cr_fail]; split <;> omega

/-- run_now's join never times out on a task that is still running. -/
def NoJoinTimeout (s : St) (a : Act) : Prop :=
  ∀ t, s.pc = .joining t → a = .timeout → (s.task t).phase = .dead

/-- Invariant: completed tasks have ended and the counters classify them. -/
def Settled (s : St) : Prop :=
  (∀ t ∈ s.completed, (s.task t).phase = .dead) ∧
  s.okSim = s.completed.countP (fun t => decide ((s.task t).retcode = 0))

theorem settled_setTask (s : St) (t : Nat) (f : Task → Task) (hd : (s.task t).phase ≠ .dead) (hi : Settled s) :
    Settled (setTask s t f) := by
  have hne : ∀ u ∈ s.completed, u ≠ t := by rintro u hu rfl; exact hd (hi.1 u hu)
  constructor
  · intro u hu
    simp only [setTask] at hu ⊢
    rw [if_neg (hne u hu)]; exact hi.1 u hu
  · show s.okSim = s.completed.countP _
    rw [hi.2]
    apply List.countP_congr
    intro u hu
    have : (setTask s t f).task u = s.task u := by simp [setTask, hne u hu]
    rw [this]

theorem settled_spawn (s : St) (hlt : ∀ t ∈ s.completed, t < s.count) (hi : Settled s) : Settled (spawn s) := by
  constructor
  · intro u hu
    simp only [spawn] at hu ⊢
    rw [if_neg (by have := hlt u hu; omega)]; exact hi.1 u hu
  · show s.okSim = s.completed.countP _
    rw [hi.2]
    apply List.countP_congr
    intro u hu
    have : (spawn s).task u = s.task u := by
      simp only [spawn]; rw [if_neg (by have := hlt u hu; omega)]
    rw [this]

theorem settled_complete (s : St) (t : Nat) (act : List Nat) (pc : PC) (hd : (s.task t).phase = .dead) (hi : Settled s) :
    Settled { countResult s t with active := act, completed := s.completed ++ [t], pc := pc } := by
  constructor
  · intro u hu
    simp only [cr_task, List.mem_append, List.mem_singleton] at hu ⊢
    rcases hu with hu | rfl
    · exact hi.1 u hu
    · exact hd
  · simp only [cr_task, cr_ok, List.countP_append, List.countP_singleton, hi.2, decide_eq_true_eq]

theorem placed_lt {s : St} (hp : Placed s) (t : Nat) (ht : t ∈ s.active ∨ t ∈ s.completed) : t < s.count := by
  have : t ∈ List.range s.count := hp.mem_iff.mp (by simp only [List.mem_append]; tauto)
  simpa using this

theorem settled_step {s a s' o} (h : Trans accept itWait s a s' o) (hg : NoJoinTimeout s a) (hpl : Placed s)
    (hi : Settled s) : Settled s' := by
  have hlt : ∀ t ∈ s.completed, t < s.count := fun t ht => placed_lt hpl t (Or.inr ht)
  cases h
  case begin t hc hp => exact settled_setTask s t _ (by rw [hp]; decide) hi
  case simReturns t rc hc hp => exact settled_setTask s t _ (by rw [hp]; decide) hi
  case die t hc hp => exact settled_setTask s t _ (by rw [hp]; decide) hi
  case callRunNow name e hp => exact settled_spawn (prepare s name e) hlt hi
  case runNoWait => exact settled_spawn s hlt hi
  case runLaunch => exact settled_spawn s hlt hi
  case updMove i k hp hl hd => exact settled_complete s _ _ _ hd hi
  case joined t hp hd => 
    have := settled_complete s t s.active .idle hd hi
    simpa [Settled] using this
  case joinTimeout t hp =>
    have := settled_complete s t s.active .idle (hg t hp rfl) hi
    simpa [Settled] using this
  all_goals exact hi

/-- The client is between `_prepare_sim` and the launch. -/
def Launching : PC → Prop
  | .runLoop _ => True
  | .runTest => True
  | .upd _ .toRunTest => True
  | _ => False

/-- Run numbers. -/
def Numbered (s : St) : Prop :=
  s.issued.map (·.1) = List.range' 1 s.runno ∧
  (∀ n f, (n, some f) ∈ s.issued → ∃ name, f = runFileName name n) ∧
  (∀ t < s.count, 1 ≤ (s.task t).runno ∧ (s.task t).runno ≤ s.runno) ∧
  (∀ t u, t < u → u < s.count → (s.task t).runno < (s.task u).runno) ∧
  (Launching s.pc → 1 ≤ s.runno ∧ ∀ t < s.count, (s.task t).runno < s.runno)

theorem range'_snoc (n : Nat) : List.range' 1 (n + 1) = List.range' 1 n ++ [n + 1] := by
  rw [List.range'_1_concat, Nat.add_comm]

theorem numbered_setTask (s : St) (t : Nat) (f : Task → Task) (hf : ∀ x, (f x).runno = x.runno) (hi : Numbered s) :
    Numbered (setTask s t f) := by
  have : ∀ u, ((setTask s t f).task u).runno = (s.task u).runno := by
    intro u; simp only [setTask]; split
    · rename_i h; rw [hf, h]
    · rfl
  unfold Numbered at *
  simp only [this]
  exact hi

theorem numbered_prepare (s : St) (name : List Char) (e : Bool) (pc : PC) (hi : Numbered s) :
    Numbered { prepare s name e with pc := pc } := by
  obtain ⟨h1, h2, h3, h4, h5⟩ := hi
  refine ⟨?_, ?_, ?_, h4, ?_⟩
  · simp only [prepare, List.map_append, h1, List.map_cons, List.map_nil, range'_snoc]
  · intro n f hm
    simp only [prepare, List.mem_append, List.mem_singleton, Prod.mk.injEq] at hm
    rcases hm with hm | ⟨rfl, hf⟩
    · exact h2 n f hm
    · cases e
      · simp only [Bool.false_eq_true, if_false, Option.some.injEq] at hf; exact ⟨name, hf⟩
      · simp at hf
  · intro t ht
    have := h3 t ht
    simp only [prepare]; omega
  · intro _
    refine ⟨by simp [prepare], ?_⟩
    intro t ht
    have := h3 t ht
    simp only [prepare]; omega

theorem numbered_spawn (s : St) (act : List Nat) (pc : PC) (hpc : ¬ Launching pc) (h1r : 1 ≤ s.runno)
    (hlt : ∀ t < s.count, (s.task t).runno < s.runno) (hi : Numbered s) :
    Numbered { spawn s with active := act, pc := pc } := by
  obtain ⟨h1, h2, h3, h4, h5⟩ := hi
  refine ⟨h1, h2, ?_, ?_, fun h => absurd h hpc⟩
  · intro t ht
    simp only [spawn] at ht ⊢
    split
    · exact ⟨h1r, Nat.le_refl _⟩
    · exact h3 t (by omega)
  · intro t u htu hu
    simp only [spawn] at hu ⊢
    rw [if_neg (by omega : t ≠ s.count)]
    split
    · exact hlt t (by omega)
    · exact h4 t u htu (by omega)

theorem numbered_pc (s : St) (pc : PC) (ct : Nat) (h : Launching pc → Launching s.pc) (hi : Numbered s) :
    Numbered { s with pc := pc, counter := ct } := by
  obtain ⟨h1, h2, h3, h4, h5⟩ := hi
  exact ⟨h1, h2, h3, h4, fun hl => h5 (h hl)⟩

theorem numbered_complete (s : St) (t : Nat) (act comp : List Nat) (pc : PC) (h : Launching pc → Launching s.pc) (hi : Numbered s) :
    Numbered { countResult s t with active := act, completed := comp, pc := pc } := by
  obtain ⟨h1, h2, h3, h4, h5⟩ := hi
  unfold Numbered
  simp only [cr_issued, cr_runno, cr_task, cr_count]
  exact ⟨h1, h2, h3, h4, fun hl => h5 (h hl)⟩

theorem numbered_step {s a s' o} (h : Trans accept itWait s a s' o) (hi : Numbered s) : Numbered s' := by
  cases h
  case begin => exact numbered_setTask _ _ _ (fun _ => rfl) hi
  case simReturns => exact numbered_setTask _ _ _ (fun _ => rfl) hi
  case die => exact numbered_setTask _ _ _ (fun _ => rfl) hi
  case callRun => exact numbered_prepare _ _ _ _ hi
  case callRunBad name hp => exact numbered_prepare s name true s.pc hi
  case callRunNow name e hp =>
    have := numbered_prepare s name e (.runLoop true) hi
    exact numbered_spawn { prepare s name e with pc := .runLoop true } s.active _ (by simp [Launching])
      (this.2.2.2.2 trivial).1 (this.2.2.2.2 trivial).2 this
  case runNoWait hp =>
    have := hi.2.2.2.2 (by rw [hp]; trivial)
    exact numbered_spawn s _ _ (by simp [Launching]) this.1 this.2 hi
  case runLaunch hp hl =>
    have := hi.2.2.2.2 (by rw [hp]; trivial)
    exact numbered_spawn s _ _ (by simp [Launching]) this.1 this.2 hi
  case updMove i k hp hl hd => exact numbered_complete _ _ _ _ _ (by rw [hp]; cases k <;> simp [Launching]) hi
  case joined t hp hd => 
    have := numbered_complete s t s.active (s.completed ++ [t]) .idle (by simp [Launching]) hi
    simpa [Numbered] using this
  case joinTimeout t hp =>
    have := numbered_complete s t s.active (s.completed ++ [t]) .idle (by simp [Launching]) hi
    simpa [Numbered] using this
  case updDone i k hp hl => exact numbered_pc s _ s.counter (by rw [hp]; cases k <;> simp [Launching, contPC]) hi
  case updSkip i k hp hl hd => exact numbered_pc s _ s.counter (by rw [hp]; cases k <;> simp [Launching]) hi
  case runWait hp => exact numbered_pc s _ s.counter (by rw [hp]; simp [Launching]) hi
  case runSleep hp hl => exact numbered_pc s _ s.counter (by rw [hp]; simp [Launching]) hi
  all_goals exact numbered_pc s _ _ (by simp [Launching, *]) hi

/-- Combined invariant along any schedule. -/
theorem reach_inv {G parallel s outs} (h : Reach accept itWait parallel G s outs) :
    Placed s ∧ s.okSim + s.failSim = s.completed.length ∧ Numbered s ∧ s.parallel = parallel := by
  induction h with
  | init => exact ⟨by simp [Placed, init], rfl, by simp [Numbered, init, Launching], rfl⟩
  | step hr hg hs ih =>
    have ht := step_trans _ _ _ _ hs
    refine ⟨placed_step ht ih.1, counts_step ht ih.2.1, numbered_step ht ih.2.2.1, ?_⟩
    rw [← ih.2.2.2]
    cases ht <;> simp [setTask, prepare, spawn, launch]

theorem reach_settled {G : St → Act → Prop} {parallel s outs} (hG : ∀ s a, G s a → NoJoinTimeout s a)
    (h : Reach accept itWait parallel G s outs) : Settled s := by
  induction h with
  | init => exact ⟨by simp [init], rfl⟩
  | step hr hg hs ih => exact settled_step (step_trans _ _ _ _ hs) (hG _ _ hg) (reach_inv hr).1 ih

end Lemmas.Runner
