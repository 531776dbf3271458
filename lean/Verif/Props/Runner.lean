import Verif.Lemmas.Runner
import Verif.Lemmas.FileName
/-
C08–C11: SimRunner and TaskIterator (sim/sim_runner.py), for every schedule of client and task threads.
-/
namespace Props.Runner
open Model.Runner Lemmas.Runner Lemmas.FileName

variable {accept : Nat → Bool} {itWait : Bool} {parallel : Nat}

/-- No restriction on schedules. -/
def AnySchedule : St → Act → Prop := fun _ _ => True

/-- Restriction: `run_now` does not give up on a simulation that is still running (its `join` waits one
second longer than the simulator's own timeout). -/
def RunNowWaits (s : St) (a : Act) : Prop :=
  ∀ t, s.pc = .joining t → a = .timeout → (s.task t).phase = .dead

/-- Number of simulations currently alive. -/
def aliveCount (s : St) : Nat := (List.range s.count).countP (fun t => decide ((s.task t).phase ≠ .dead))

/-! ### C08 -/

/-- C08: in every schedule the run numbers handed out are 1, 2, 3, … without gap or reuse, every task carries
one of them and no two tasks carry the same. -/
theorem C08_run_numbers_fresh {s : St} {outs} (h : Reach accept itWait parallel AnySchedule s outs) :
    s.issued.map (·.1) = List.range' 1 s.runno ∧
    (∀ t < s.count, 1 ≤ (s.task t).runno ∧ (s.task t).runno ≤ s.runno) ∧
    (∀ t u, t < s.count → u < s.count → (s.task t).runno = (s.task u).runno → t = u) := by
  obtain ⟨_, _, ⟨h1, _, h3, h4, _⟩, _⟩ := reach_inv h
  refine ⟨h1, h3, ?_⟩
  intro t u ht hu he
  rcases Nat.lt_trichotomy t u with hlt | heq | hgt
  · have := h4 t u hlt hu; omega
  · exact heq
  · have := h4 u t hgt ht; omega

/-- C08 (circuit names not ending in a dot): default netlist file names, and the log file names
derived from them, of two different run numbers differ, whatever the circuit names and extensions. -/
theorem C08_file_names_distinct (a b : List Char) (m n : Nat) (hmn : m ≠ n)
    (ha : ∀ p, a ≠ p ++ ['.']) (hb : ∀ p, b ≠ p ++ ['.']) :
    runFileName a m ≠ runFileName b n ∧
    logFileName (runFileName a m) ≠ logFileName (runFileName b n) := by
  have key : (splitExt (runFileName a m)).1 ≠ (splitExt (runFileName b n)).1 := by
    intro h
    rw [splitExt_runFileName a m ha, splitExt_runFileName b n hb] at h
    exact hmn (stem_inj _ _ _ _ h)
  constructor
  · intro h; exact key (by rw [h])
  · intro h; exact key (List.append_cancel_right h)

/-- C08 on histories: if no circuit name ends in a dot, the default file names used in a
history are pairwise different. -/
theorem C08_history_files_distinct {s : St} {outs}
    (h : Reach accept itWait parallel (fun _ a => match a with
      | .callRun name _ _ | .callRunNow name _ => ∀ p, name ≠ p ++ ['.']
      | _ => True) s outs) :
    s.issued.Pairwise (fun x y => ∀ f g, x.2 = some f → y.2 = some g → f ≠ g ∧ logFileName f ≠ logFileName g) := by
  have hnum := (reach_inv h).2.2.1.1
  have hnames : ∀ n f, (n, some f) ∈ s.issued → ∃ name, (∀ p, name ≠ p ++ ['.']) ∧ f = runFileName name n := by
    clear hnum
    induction h with
    | init => simp [init]
    | @step s outs a s' o hr hg hs ih =>
      have ht := step_trans _ _ _ _ hs
      have hprep : ∀ name e n f, (e = false → ∀ p, name ≠ p ++ ['.']) → (n, some f) ∈ (prepare s name e).issued →
          ∃ name, (∀ p, name ≠ p ++ ['.']) ∧ f = runFileName name n := by
        intro name e n f hne hm
        simp only [prepare, List.mem_append, List.mem_singleton, Prod.mk.injEq] at hm
        rcases hm with hm | ⟨rfl, hf⟩
        · exact ih n f hm
        · cases e
          · simp only [Bool.false_eq_true, if_false, Option.some.injEq] at hf; exact ⟨name, hne rfl, hf⟩
          · simp at hf
      cases ht
      case callRun name e w hp => intro n f hm; exact hprep name e n f (fun _ => hg) hm
      case callRunNow name e hp => intro n f hm; exact hprep name e n f (fun _ => hg) hm
      case callRunBad name hp => intro n f hm; exact hprep name true n f (by simp) hm
      case updMove => simpa using ih
      case joined => simpa using ih
      case joinTimeout => simpa using ih
      all_goals exact ih
  have hpw : s.issued.Pairwise (fun x y => x.1 ≠ y.1) := by
    have : (s.issued.map (·.1)).Pairwise (· ≠ ·) := by rw [hnum]; exact List.nodup_range'
    rw [List.pairwise_map] at this; exact this
  refine List.Pairwise.imp_of_mem ?_ hpw
  rintro ⟨m, x⟩ ⟨n, y⟩ hx hy hne f g hf hg
  simp only at hf hg hne
  subst hf hg
  obtain ⟨a, ha, rfl⟩ := hnames m f hx
  obtain ⟨b, hb, rfl⟩ := hnames n g hy
  exact C08_file_names_distinct a b m n hne ha hb

/-- C08 fails for names ending in a dot: circuit "a._7" in run 3 and circuit "a_3." in run 7 use the same
netlist file "a_3._7". -/
theorem C08_trailing_dot_collision :
    runFileName ['a', '.', '_', '7'] 3 = runFileName ['a', '_', '3', '.'] 7 := by decide

example : runFileName ['a', '.', 'q', 's', 'c', 'h'] 12 = ['a', '_', '1', '2', '.', 'n', 'e', 't'] := by decide

/-! ### C09 -/

/-- C09: in every schedule whatsoever, every task ever started is in exactly one of: the active list, the
completed list, or under a `run_now` call in progress; and okSim + failSim is the number of completed
tasks. -/
theorem C09_no_task_lost_or_duplicated {s : St} {outs} (h : Reach accept itWait parallel AnySchedule s outs) :
    (∀ t, t < s.count ↔ (t ∈ s.active ∨ t ∈ s.completed ∨ s.pc = .joining t)) ∧
    s.active.Nodup ∧ s.completed.Nodup ∧ (∀ t ∈ s.active, t ∉ s.completed) ∧
    (∀ t, s.pc = .joining t → t ∉ s.active ∧ t ∉ s.completed) ∧
    s.okSim + s.failSim = s.completed.length := by
  obtain ⟨hp, hc, _, _⟩ := reach_inv h
  have hpend : ∀ t, t ∈ pending s.pc ↔ s.pc = .joining t := by
    intro t; cases s.pc <;> simp [eq_comm]
  have hnd : (s.active ++ s.completed ++ pending s.pc).Nodup := hp.nodup_iff.mpr List.nodup_range
  rw [List.nodup_append, List.nodup_append] at hnd
  refine ⟨?_, hnd.1.1, hnd.1.2.1, ?_, ?_, hc⟩
  · intro t
    have := hp.mem_iff (a := t)
    simp only [List.mem_append, List.mem_range, hpend] at this
    rw [← this]; tauto
  · intro t ha hcm; exact hnd.1.2.2 t ha t hcm rfl
  · intro t hj
    have hm := (hpend t).mpr hj
    exact ⟨fun ha => hnd.2.2 t (by simp [ha]) t hm rfl, fun ha => hnd.2.2 t (by simp [ha]) t hm rfl⟩

/-- C09 (no `run_now` gives up on a running simulation): completed tasks have really ended, okSim is
the number of completed tasks with return code 0, failSim the number of the others. -/
theorem C09_counters_classify {s : St} {outs} (h : Reach accept itWait parallel RunNowWaits s outs) :
    (∀ t ∈ s.completed, (s.task t).phase = .dead) ∧
    s.okSim = s.completed.countP (fun t => decide ((s.task t).retcode = 0)) ∧
    s.failSim = s.completed.countP (fun t => decide ((s.task t).retcode ≠ 0)) := by
  have hs := reach_settled (fun _ _ hg => hg) h
  have hc := (reach_inv h).2.1
  refine ⟨hs.1, hs.2, ?_⟩
  have := List.length_eq_countP_add_countP (fun t => decide ((s.task t).retcode = 0)) (l := s.completed)
  have h2 := hs.2
  have h3 : s.completed.countP (fun t => decide ((s.task t).retcode ≠ 0)) =
      s.completed.countP (fun a => decide ¬(decide ((s.task a).retcode = 0) = true)) := by
    congr 1; funext a; simp
  rw [h3]; omega

/-- C09 (as above): when `wait_completion` returns because nothing is active any more, every task
ever started has ended (and is accounted for), and the answer is True iff all of them returned 0. -/
theorem C09_wait_completion {s s' : St} {outs} {b : Bool}
    (h : Reach accept itWait parallel RunNowWaits s outs)
    (hstep : step accept itWait s .tick = some (s', some (.waitReturns b))) :
    (∀ t < s'.count, t ∈ s'.completed ∧ (s'.task t).phase = .dead) ∧
    (b = true ↔ ∀ t < s'.count, (s'.task t).retcode = 0) := by
  have ht := step_trans _ _ _ _ hstep
  obtain ⟨hdead, hok, hfail⟩ := C09_counters_classify h
  obtain ⟨hpl, _, _, _⟩ := reach_inv h
  cases ht with
  | waitEnd hp hl =>
    have hall : ∀ t < s.count, t ∈ s.completed := by
      intro t ht
      have := hpl.mem_iff (a := t)
      rw [hl, hp] at this
      simpa [ht] using this
    refine ⟨fun t ht => ⟨hall t ht, hdead t (hall t ht)⟩, ?_⟩
    simp only [beq_iff_eq]
    rw [hfail, List.countP_eq_zero]
    constructor
    · intro h0 t ht; simpa using h0 t (hall t ht)
    · intro h0 t ht
      have := placed_lt hpl t (Or.inr ht)
      simpa using h0 t this

/-- C09: a wait that gave up reports failure. -/
theorem C09_wait_timeout_reports_false {s s' : St} {b : Bool}
    (hstep : step accept itWait s .timeout = some (s', some (.waitReturns b))) : b = false := by
  cases step_trans _ _ _ _ hstep; rfl

/-! ### C10 -/

theorem alive_le_active {s : St} (hpl : Placed s) (hdead : ∀ t ∈ s.completed, (s.task t).phase = .dead) :
    aliveCount s ≤ s.active.length + (pending s.pc).length := by
  unfold aliveCount
  rw [← hpl.countP_eq, List.countP_append, List.countP_append]
  have h0 : s.completed.countP (fun t => decide ((s.task t).phase ≠ .dead)) = 0 := by
    rw [List.countP_eq_zero]; intro t ht; simp [hdead t ht]
  rw [h0]
  have := List.countP_le_length (p := fun t => decide ((s.task t).phase ≠ .dead)) (l := s.active)
  have := List.countP_le_length (p := fun t => decide ((s.task t).phase ≠ .dead)) (l := pending s.pc)
  omega

/-- C10 (all schedules in which `run_now` does not give up): a launch that waits for resources happens only
while fewer than `parallel_sims` simulations are alive – even when mixed with `wait_resource=False` runs. -/
theorem C10_launch_below_limit {s s' : St} {outs} {t : Nat}
    (h : Reach accept itWait parallel RunNowWaits s outs)
    (hwait : s.pc ≠ .runLoop false)
    (hstep : step accept itWait s .tick = some (s', some (.launched t))) :
    aliveCount s < parallel := by
  have ht := step_trans _ _ _ _ hstep
  obtain ⟨hpl, _, _, hpar⟩ := reach_inv h
  have hs := reach_settled (fun _ _ hg => hg) h
  have ha := alive_le_active hpl hs.1
  cases ht with
  | runNoWait hp => exact absurd hp hwait
  | runLaunch hp hl => rw [hp] at ha; simp at ha; omega

/-- Schedules in which every `run` waits for resources. -/
def AlwaysWaits (s : St) (a : Act) : Prop :=
  RunNowWaits s a ∧ ∀ name e w, a = .callRun name e w → w = true

/-- C10: if every `run` waits for resources, then at every moment of every schedule at most `parallel_sims`
simulations are alive (plus the one of a `run_now` call in progress, if the client is inside one). -/
theorem C10_at_most_parallel_sims {s : St} {outs} (h : Reach accept itWait parallel AlwaysWaits s outs) :
    aliveCount s ≤ parallel + (match s.pc with | .joining _ => 1 | _ => 0) := by
  have hinv : s.active.length ≤ parallel ∧ s.pc ≠ .runLoop false := by
    induction h with
    | init => simp [init]
    | @step s outs a s' o hr hg hs ih =>
      have hpar := (reach_inv hr).2.2.2
      have ht := step_trans _ _ _ _ hs
      cases ht
      case callRun name e w hp => exact ⟨ih.1, by have := hg.2 _ _ _ rfl; simp [this]⟩
      case runNoWait hp => exact absurd hp ih.2
      case runLaunch hp hl => exact ⟨by simp [launch, spawn]; omega, by simp [launch]⟩
      case updMove i k hp hl hd => exact ⟨by simp [List.length_eraseIdx, hl]; omega, by simp⟩
      case updDone i k hp hl => exact ⟨ih.1, by cases k <;> simp [contPC]⟩
      case joined => exact ⟨by simpa using ih.1, by simp⟩
      case joinTimeout => exact ⟨by simpa using ih.1, by simp⟩
      all_goals exact ⟨by simpa [setTask, prepare, spawn] using ih.1, by first | exact ih.2 | simp⟩
  obtain ⟨hpl, _, _, _⟩ := reach_inv h
  have hs := reach_settled (fun _ _ (hg : AlwaysWaits _ _) => hg.1) h
  have ha := alive_le_active hpl hs.1
  have hpp : (pending s.pc).length = (match s.pc with | .joining _ => 1 | _ => 0) := by
    cases s.pc <;> rfl
  omega

/-! ### C11 -/

/-- What the iterator has delivered since the last `iter()`, read off the outputs alone. -/
def delivered (outs : List Out) : List Nat :=
  outs.foldl (fun acc o => match o with | .iterStarted => [] | .yields t => acc ++ [t] | _ => acc) []

theorem delivered_append (outs : List Out) (o : Option Out) :
    delivered (outs ++ o.toList) = match o with
      | some .iterStarted => [] | some (.yields t) => delivered outs ++ [t] | _ => delivered outs := by
  unfold delivered
  rw [List.foldl_append]
  rcases o with _ | o
  · rfl
  · cases o <;> rfl

theorem iter_inv {s : St} {outs} (h : Reach accept itWait parallel RunNowWaits s outs) :
    s.counter ≤ s.completed.length ∧
    delivered outs = (s.completed.take s.counter).filter (fun t => accept t && decide ((s.task t).retcode = 0)) := by
  induction h with
  | init => simp [init, delivered]
  | @step s outs a s' o hr hg hs ih =>
    have ht := step_trans _ _ _ _ hs
    have hset := reach_settled (fun _ _ hg => hg) hr
    have hpl := (reach_inv hr).1
    have hlt : ∀ t ∈ s.completed, t < s.count := fun t ht => placed_lt hpl t (Or.inr ht)
    have hcong : ∀ (f : Nat → Task), (∀ t ∈ s.completed, f t = s.task t) →
        (s.completed.take s.counter).filter (fun t => accept t && decide ((f t).retcode = 0)) = delivered outs := by
      intro f hf
      rw [ih.2]
      apply List.filter_congr
      intro t ht
      rw [hf t (List.mem_of_mem_take ht)]
    have happ : ∀ t, (s.completed ++ [t]).take s.counter = s.completed.take s.counter := by
      intro t; rw [List.take_append_of_le_length ih.1]
    have hsetTask : ∀ u f, (s.task u).phase ≠ .dead → ∀ t ∈ s.completed, (setTask s u f).task t = s.task t := by
      intro u f hd t ht
      have : t ≠ u := by rintro rfl; exact hd (hset.1 t ht)
      simp [setTask, this]
    have hspawn : ∀ r, ∀ t ∈ s.completed, (if t = s.count then (⟨r, .alive, -1⟩ : Task) else s.task t) = s.task t := by
      intro r t ht; rw [if_neg (by have := hlt t ht; omega)]
    rw [delivered_append]
    cases ht
    case begin t hc hp => exact ⟨ih.1, (hcong _ (hsetTask t _ (by rw [hp]; decide))).symm⟩
    case simReturns t rc hc hp => exact ⟨ih.1, (hcong _ (hsetTask t _ (by rw [hp]; decide))).symm⟩
    case die t hc hp => exact ⟨ih.1, (hcong _ (hsetTask t _ (by rw [hp]; decide))).symm⟩
    case callRunNow name e hp => exact ⟨ih.1, (hcong _ (hspawn _)).symm⟩
    case runNoWait hp => exact ⟨ih.1, (hcong _ (hspawn _)).symm⟩
    case runLaunch hp hl => exact ⟨ih.1, (hcong _ (hspawn _)).symm⟩
    case callIter hp => exact ⟨Nat.zero_le _, by simp⟩
    case updMove i k hp hl hd =>
      refine ⟨by simp; omega, ?_⟩
      simp only [cr_counter, cr_task]
      rw [happ]; exact ih.2
    case joined t hp hd =>
      refine ⟨by simp; omega, ?_⟩
      simp only [cr_counter, cr_task]
      rw [happ]; exact ih.2
    case joinTimeout t hp =>
      refine ⟨by simp; omega, ?_⟩
      simp only [cr_counter, cr_task]
      rw [happ]; exact ih.2
    case iterYield hp hl ha hr0 =>
      refine ⟨by simp; omega, ?_⟩
      simp only
      rw [List.take_add_one, List.getElem?_eq_getElem hl, List.filter_append, ← ih.2]
      simp [ha, hr0]
    case iterSkip hp hl hn =>
      refine ⟨by simp; omega, ?_⟩
      simp only
      rw [List.take_add_one, List.getElem?_eq_getElem hl, List.filter_append, ← ih.2]
      have : (accept s.completed[s.counter] && decide ((s.task s.completed[s.counter]).retcode = 0)) = false := by
        rw [Bool.eq_false_iff]; intro hc; apply hn; simpa using hc
      simp only [Option.toList_some, List.filter_cons, this, Bool.false_eq_true, if_false, List.filter_nil, List.append_nil]
    all_goals exact ih

/-- C11: at every moment of every schedule (in which `run_now` does not give up), what the iterator has
delivered since `iter()` is: the first `k` completed tasks, in completion order, restricted to those that
match the conditions and returned 0 – hence never a failed one and none twice. -/
theorem C11_delivered_is_filtered_prefix {s : St} {outs} (h : Reach accept itWait parallel RunNowWaits s outs) :
    (∃ k, delivered outs = (s.completed.take k).filter (fun t => accept t && decide ((s.task t).retcode = 0))) ∧
    (delivered outs).Nodup := by
  have hi := iter_inv h
  refine ⟨⟨_, hi.2⟩, ?_⟩
  rw [hi.2]
  have hnd : (s.active ++ s.completed ++ pending s.pc).Nodup := (reach_inv h).1.nodup_iff.mpr List.nodup_range
  rw [List.nodup_append, List.nodup_append] at hnd
  exact hnd.1.2.1.sublist (List.filter_sublist.trans (List.take_sublist _ _))

/-- C11: when iteration stops (waiting iterator), nothing is active, and exactly the matching successful ones
among all tasks ever started have been delivered. -/
theorem C11_stop_means_all_delivered {s s' : St} {outs} {a : Act}
    (h : Reach accept true parallel RunNowWaits s outs)
    (hstep : step accept true s a = some (s', some .stopIteration)) :
    s'.active = [] ∧
    delivered outs = s'.completed.filter (fun t => accept t && decide ((s'.task t).retcode = 0)) ∧
    ∀ t < s'.count, (s'.task t).phase = .dead ∧
      (t ∈ delivered outs ↔ accept t = true ∧ (s'.task t).retcode = 0) := by
  have ht := step_trans _ _ _ _ hstep
  obtain ⟨hpl, _, _, _⟩ := reach_inv h
  have hset := reach_settled (fun _ _ hg => hg) h
  have hi := iter_inv h
  cases ht with
  | iterStop hp hl ha =>
    have hact : s.active = [] := by simpa using ha
    have hdel : delivered outs = s.completed.filter (fun t => accept t && decide ((s.task t).retcode = 0)) := by
      rw [hi.2, List.take_of_length_le hl]
    refine ⟨hact, hdel, ?_⟩
    intro t htc
    have hmem : t ∈ s.completed := by
      have := hpl.mem_iff (a := t)
      rw [hact, hp] at this
      simp only [pending_iterTest, List.nil_append, List.append_nil, List.mem_range] at this
      exact this.mpr htc
    refine ⟨hset.1 t hmem, ?_⟩
    rw [hdel]
    simp [hmem]

/-- C11: a delivered task has completed, matches, returned 0, and was not delivered before. -/
theorem C11_each_delivery {s s' : St} {outs} {a : Act} {t : Nat}
    (h : Reach accept itWait parallel RunNowWaits s outs)
    (hstep : step accept itWait s a = some (s', some (.yields t))) :
    t ∈ s.completed ∧ accept t = true ∧ (s.task t).retcode = 0 ∧ (s.task t).phase = .dead ∧ t ∉ delivered outs := by
  have ht := step_trans _ _ _ _ hstep
  have hset := reach_settled (fun _ _ hg => hg) h
  have hi := iter_inv h
  have hnd : (s.active ++ s.completed ++ pending s.pc).Nodup := (reach_inv h).1.nodup_iff.mpr List.nodup_range
  rw [List.nodup_append, List.nodup_append] at hnd
  cases ht with
  | iterYield hp hl ha hr =>
    refine ⟨List.getElem_mem _, ha, hr, hset.1 _ (List.getElem_mem _), ?_⟩
    rw [hi.2]
    intro hm
    have hm := (List.mem_filter.mp hm).1
    rw [List.mem_take_iff_getElem] at hm
    obtain ⟨j, hj, he⟩ := hm
    have := (List.getElem_inj hnd.1.2.1).mp he
    omega

/-! ### Histories that use only `run` (no `run_now`): the restriction above is automatically met -/

/-- The client only calls `run` (with or without waiting), never `run_now`. -/
def NoRunNow (_ : St) (a : Act) : Prop := ∀ name e, a ≠ .callRunNow name e

theorem reach_no_run_now {G : St → Act → Prop} {s : St} {outs} (hG : ∀ s a, G s a → NoRunNow s a)
    (h : Reach accept itWait parallel G s outs) :
    Reach accept itWait parallel (fun s a => RunNowWaits s a ∧ G s a) s outs ∧ ∀ t, s.pc ≠ .joining t := by
  induction h with
  | init => exact ⟨.init, by simp [init]⟩
  | @step s outs a s' o hr hg hs ih =>
    refine ⟨.step ih.1 ⟨fun t ht => absurd ht (ih.2 t), hg⟩ hs, ?_⟩
    have ht := step_trans _ _ _ _ hs
    cases ht
    case callRunNow => exact absurd rfl (hG _ _ hg _ _)
    case updDone i k hp hl => intro t; cases k <;> simp [contPC]
    all_goals first | exact ih.2 | (intro t; simp [launch])

theorem reach_mono {G H : St → Act → Prop} {s : St} {outs} (hG : ∀ s a, G s a → H s a)
    (h : Reach accept itWait parallel G s outs) : Reach accept itWait parallel H s outs := by
  induction h with
  | init => exact .init
  | step hr hg hs ih => exact .step ih (hG _ _ hg) hs

/-- C09 for clients that only use `run`: no restriction on the schedule at all. -/
theorem C09_run_only {s : St} {outs} (h : Reach accept itWait parallel NoRunNow s outs) :
    (∀ t, t < s.count ↔ (t ∈ s.active ∨ t ∈ s.completed)) ∧ (s.active ++ s.completed).Nodup ∧
    (∀ t ∈ s.completed, (s.task t).phase = .dead) ∧
    s.okSim = s.completed.countP (fun t => decide ((s.task t).retcode = 0)) ∧
    s.failSim = s.completed.countP (fun t => decide ((s.task t).retcode ≠ 0)) ∧
    ∀ s' b, step accept itWait s .tick = some (s', some (.waitReturns b)) →
      (b = true ↔ ∀ t < s'.count, (s'.task t).retcode = 0) := by
  obtain ⟨hr, hj⟩ := reach_no_run_now (fun _ _ h => h) h
  have hr' := reach_mono (H := RunNowWaits) (fun _ _ h => h.1) hr
  have h1 := C09_no_task_lost_or_duplicated (reach_mono (H := AnySchedule) (fun _ _ _ => trivial) h)
  have h2 := C09_counters_classify hr'
  refine ⟨?_, ?_, h2.1, h2.2.1, h2.2.2, ?_⟩
  · intro t; rw [h1.1 t]; simp [hj t]
  · rw [List.nodup_append]
    refine ⟨h1.2.1, h1.2.2.1, ?_⟩
    rintro a ha b hb rfl
    exact h1.2.2.2.1 a ha hb
  · intro s' b hs; exact (C09_wait_completion hr' hs).2

/-- C10 for clients that only use `run` with `wait_resource=True`: in every schedule at most
`parallel_sims` simulations are alive. -/
theorem C10_run_only {s : St} {outs}
    (h : Reach accept itWait parallel (fun s a => NoRunNow s a ∧ ∀ name e w, a = .callRun name e w → w = true) s outs) :
    aliveCount s ≤ parallel := by
  obtain ⟨hr, hj⟩ := reach_no_run_now (fun _ _ h => h.1) h
  have := C10_at_most_parallel_sims (reach_mono (H := AlwaysWaits) (fun _ _ h => ⟨h.1, h.2.2⟩) hr)
  cases hpc : s.pc <;> simp only [hpc] at this
  case joining t => exact absurd hpc (hj t)
  all_goals exact this

/-- C11 for clients that only use `run`: in every schedule, what was delivered is the matching successful part
of a prefix of the completion order, without repetition; and at the end of iteration it is exactly the
matching successful tasks among all tasks ever started, all of which have ended. -/
theorem C11_run_only {s : St} {outs} (h : Reach accept true parallel NoRunNow s outs) :
    (∃ k, delivered outs = (s.completed.take k).filter (fun t => accept t && decide ((s.task t).retcode = 0))) ∧
    (delivered outs).Nodup ∧
    ∀ s' a, step accept true s a = some (s', some .stopIteration) →
      s'.active = [] ∧ ∀ t < s'.count, (s'.task t).phase = .dead ∧
        (t ∈ delivered outs ↔ accept t = true ∧ (s'.task t).retcode = 0) := by
  obtain ⟨hr, _⟩ := reach_no_run_now (fun _ _ h => h) h
  have hr' := reach_mono (H := RunNowWaits) (fun _ _ h => h.1) hr
  have h1 := C11_delivered_is_filtered_prefix hr'
  refine ⟨h1.1, h1.2, ?_⟩
  intro s' a hs
  have := C11_stop_means_all_delivered hr' hs
  exact ⟨this.1, this.2.2⟩

/-! ### Non-vacuity and counter-example -/

def execAll (accept : Nat → Bool) (itWait : Bool) : St → List Act → Option (St × List Out)
  | s, [] => some (s, [])
  | s, a :: as => match step accept itWait s a with
    | none => none
    | some (s1, o) => match execAll accept itWait s1 as with
      | none => none
      | some (s2, os) => some (s2, o.toList ++ os)

theorem reach_execAll {G : St → Act → Prop} (hG : ∀ s a, G s a) {s outs} (hr : Reach accept itWait parallel G s outs) :
    ∀ as s' os, execAll accept itWait s as = some (s', os) → Reach accept itWait parallel G s' (outs ++ os) := by
  intro as
  induction as generalizing s outs with
  | nil => intro s' os h; simp only [execAll, Option.some.injEq, Prod.mk.injEq] at h; obtain ⟨rfl, rfl⟩ := h; simpa using hr
  | cons a as ih =>
    intro s' os h
    simp only [execAll] at h
    split at h
    · simp at h
    · rename_i s1 o h1
      split at h
      · simp at h
      · rename_i s2 os2 h2
        simp only [Option.some.injEq, Prod.mk.injEq] at h
        obtain ⟨rfl, rfl⟩ := h
        have := ih (Reach.step hr (hG _ _) h1) _ _ h2
        simpa using this

/-- A run_now that times out (join returns while the task runs), after which the simulation succeeds. -/
def orphanSchedule : List Act :=
  [.callRunNow ['a'] false, .begin 0, .timeout, .simReturns 0 0, .die 0, .callWait, .tick, .tick]

/-- Without the restriction C09 fails on the unchanged code: a `run_now` whose join times out counts the
simulation as failed although it later returns 0, and `wait_completion` reports False although every task
returned 0. -/
theorem C09_run_now_timeout_miscounted :
    ∃ s outs, Reach (fun _ => true) true 4 AnySchedule s outs ∧
      Out.waitReturns false ∈ outs ∧ s.completed = [0] ∧ s.okSim = 0 ∧ s.failSim = 1 ∧
      (s.task 0).retcode = 0 ∧ (s.task 0).phase = .dead := by
  have h : (execAll (fun _ => true) true (init 4) orphanSchedule).isSome = true := by decide
  rw [Option.isSome_iff_exists] at h
  obtain ⟨⟨s, os⟩, hs⟩ := h
  have hr := reach_execAll (G := AnySchedule) (fun _ _ => trivial) (Reach.init (accept := fun _ => true) (itWait := true) (parallel := 4)) _ _ _ hs
  have hp : (execAll (fun _ => true) true (init 4) orphanSchedule).map
      (fun p => (decide (Out.waitReturns false ∈ p.2), p.1.completed, p.1.okSim, p.1.failSim, (p.1.task 0).retcode, (p.1.task 0).phase))
      = some (true, [0], 0, 1, 0, .dead) := by decide
  rw [hs] at hp
  simp only [Option.map_some, Option.some.injEq, Prod.mk.injEq, decide_eq_true_eq] at hp
  exact ⟨s, [] ++ os, hr, by simpa using hp.1, hp.2.1, hp.2.2.1, hp.2.2.2.1, hp.2.2.2.2.1, hp.2.2.2.2.2⟩

/-- Without the restriction C11 fails on the unchanged code: after a `run_now` whose join timed out, iteration
stops although that simulation is still running (and its success is never delivered). -/
theorem C11_run_now_timeout_stops_early :
    ∃ s outs, Reach (fun _ => true) true 4 AnySchedule s outs ∧
      Out.stopIteration ∈ outs ∧ delivered outs = [] ∧ s.count = 1 ∧ (s.task 0).phase = .running := by
  have h : (execAll (fun _ => true) true (init 4)
      [.callRunNow ['a'] false, .begin 0, .timeout, .callIter, .callNext, .tick, .tick, .tick, .tick]).isSome = true := by decide
  rw [Option.isSome_iff_exists] at h
  obtain ⟨⟨s, os⟩, hs⟩ := h
  have hr := reach_execAll (G := AnySchedule) (fun _ _ => trivial) (Reach.init (accept := fun _ => true) (itWait := true) (parallel := 4)) _ _ _ hs
  have hp : (execAll (fun _ => true) true (init 4)
      [.callRunNow ['a'] false, .begin 0, .timeout, .callIter, .callNext, .tick, .tick, .tick, .tick]).map
      (fun p => (decide (Out.stopIteration ∈ p.2), delivered p.2, p.1.count, (p.1.task 0).phase))
      = some (true, [], 1, .running) := by decide
  rw [hs] at hp
  simp only [Option.map_some, Option.some.injEq, Prod.mk.injEq, decide_eq_true_eq] at hp
  exact ⟨s, [] ++ os, hr, by simpa using hp.1, by simpa using hp.2.1, hp.2.2.1, hp.2.2.2⟩

/-- A schedule with three launches under parallel_sims = 2, one failure, and a complete iteration; it
satisfies the restrictions used above (no `.timeout`, every run waits). -/
def sampleSchedule : List Act :=
  [.callRun ['a'] false true, .tick, .tick, .tick, .callRun ['a'] false true, .tick, .tick, .tick, .tick,
   .begin 0, .begin 1, .simReturns 1 0, .callRun ['b'] false true, .tick, .tick, .tick, .tick, .tick,
   .die 1, .tick, .tick, .tick, .tick, .tick,
   .simReturns 0 1, .die 0, .begin 2, .simReturns 2 0, .die 2,
   .callIter, .callNext, .tick, .tick, .tick, .tick, .callNext, .tick, .tick, .tick, .tick, .callNext, .tick, .tick]

example : (execAll (fun _ => true) true (init 2) sampleSchedule).map
    (fun p => (p.2, p.1.completed, p.1.okSim, p.1.failSim, p.1.runno)) =
    some ([.launched 0, .launched 1, .launched 2, .iterStarted, .yields 1, .yields 2, .stopIteration], [1, 0, 2], 2, 1, 3) := by
  decide

end Props.Runner
