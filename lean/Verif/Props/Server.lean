import Verif.Lemmas.Server
import Verif.Spec.ClientTrace
/-
C41: sessions of the simulation server.
-/
namespace Props.Server
open Model.Server Spec.ServerHistory Spec.ClientTrace Lemmas.Server

/-! ### C41 -/

theorem filter_completed {st : St} {h : History} (i : Inv st h) {s : Nat} (ho : ¬ Closed h s) :
    (st.completed.map Prod.fst).filter (fun r => (startedBy h s).contains r) =
      ((ended h).map Prod.fst).filter (fun r => decide (r ∈ startedBy h s ∧ r ∉ fetched h)) := by
  rw [List.filter_map, List.filter_map]
  congr 1
  have hc : st.completed = (ended h).filter (fun e => decide (e ∈ st.completed)) := by
    have hn : (ended h).Nodup := List.Nodup.of_map _ i.enodup
    have hsub := i.sub
    clear i
    generalize st.completed = c at hsub ⊢
    generalize ended h = l at hsub hn ⊢
    induction hsub with
    | slnil => rfl
    | @cons l₁ l₂ a hs ih =>
      rw [List.nodup_cons] at hn
      rw [List.filter_cons_of_neg (by simpa using fun hm => hn.1 (hs.subset hm))]
      exact ih hn.2
    | @cons_cons l₁ l₂ a hs ih =>
      rw [List.nodup_cons] at hn
      rw [List.filter_cons_of_pos (by simp)]
      congr 1
      refine (ih hn.2).trans ?_
      apply List.filter_congr
      intro x hx
      have : x ≠ a := fun e => hn.1 (e ▸ hx)
      simp [this]
  conv => lhs; rw [hc]
  rw [List.filter_filter]
  apply List.filter_congr
  intro e he
  simp only [Function.comp, List.contains_eq_mem]
  rw [← Bool.decide_and, decide_eq_decide]
  constructor
  · rintro ⟨h1, h2⟩
    exact ⟨h1, fun hf => i.fgone e.1 hf (List.mem_map_of_mem h2)⟩
  · rintro ⟨h1, h2⟩
    exact ⟨h1, i.view s ho e he h1 h2⟩

/-- C41: after any sequence of requests of any sessions and endings of runs, status tells an open session exactly the runs that
were started by this session, ended, and were not fetched, in the order in which they ended. -/
theorem C41_status (as : List Act) (s : Nat) (ho : IsOpen (exec init as).2 s) :
    (step (exec init as).1 (.status s)).2 = .list (((ended (exec init as).2).map Prod.fst).filter
      (fun r => decide (r ∈ startedBy (exec init as).2 s ∧ r ∉ fetched (exec init as).2))) := by
  have i := inv_reach as
  simp only [step, i.openLook s ho]
  rw [filter_completed i ho.2]

/-- C41: get_files hands an open session the result of a run exactly when the run was started by this session, ended with this
result, and was not fetched before; otherwise it answers with no data. -/
theorem C41_get (as : List Act) (s r d : Nat) (ho : IsOpen (exec init as).2 s) :
    ((step (exec init as).1 (.get s r)).2 = .data d ↔
      r ∈ startedBy (exec init as).2 s ∧ (r, some d) ∈ ended (exec init as).2 ∧ r ∉ fetched (exec init as).2) ∧
    ((∀ d', (step (exec init as).1 (.get s r)).2 ≠ .data d') → (step (exec init as).1 (.get s r)).2 = .noData) := by
  have i := inv_reach as
  simp only [step, i.openLook s ho]
  by_cases hc : (startedBy (exec init as).2 s).contains r
  · have hm : r ∈ startedBy (exec init as).2 s := by simpa using hc
    rw [if_pos hc]
    cases hf : fetch r (exec init as).1.completed with
    | some d' =>
      have hd := (fetch_some i.cnodup).mp hf
      refine ⟨?_, fun hn => absurd rfl (hn d')⟩
      constructor
      · intro e; cases e
        exact ⟨hm, i.sub.subset hd, fun hx => i.fgone r hx (List.mem_map_of_mem (f := Prod.fst) hd)⟩
      · rintro ⟨_, h2, h3⟩
        have h4 := i.view s ho.2 _ h2 hm h3
        have := (fetch_some i.cnodup).mpr h4
        rw [hf] at this; cases this; rfl
    | none =>
      refine ⟨?_, fun _ => rfl⟩
      simp only [reduceCtorEq, false_iff]
      rintro ⟨_, h2, h3⟩
      have := (fetch_some i.cnodup).mpr (i.view s ho.2 _ h2 hm h3)
      rw [hf] at this; cases this
  · have hm : r ∉ startedBy (exec init as).2 s := by simpa using hc
    rw [if_neg hc]
    simp [hm]

/-- C41: over any history, the result of a run is handed out at most once, to whatever session. -/
theorem C41_at_most_once (as : List Act) : (fetched (exec init as).2).Nodup := (inv_reach as).fnodup

/-- C41: no two run requests get the same number, whether of one session or of two. -/
theorem C41_run_numbers (as : List Act) :
    (∀ s : Nat, (startedBy (exec init as).2 s).Nodup) ∧
    ∀ (s s' r : Nat), r ∈ startedBy (exec init as).2 s → r ∈ startedBy (exec init as).2 s' → s = s' :=
  ⟨(inv_reach as).snodup, (inv_reach as).disj⟩

theorem exec_snoc (st : St) (as : List Act) (a : Act) :
    exec st (as ++ [a]) = ((step (exec st as).1 a).1, (exec st as).2 ++ [(a, (step (exec st as).1 a).2)]) := by
  induction as generalizing st with
  | nil => rfl
  | cons b bs ih => simp only [List.cons_append, exec, ih]

/-- What other sessions ask for is not recorded as this session's. -/
theorem frame_facts (as : List Act) (a : Act) (s : Nat) (ha : speaksFor a ≠ some s) (hs : Opened (exec init as).2 s) :
    startedBy (exec init (as ++ [a])).2 s = startedBy (exec init as).2 s ∧
    (IsOpen (exec init (as ++ [a])).2 s ↔ IsOpen (exec init as).2 s) ∧
    (∀ r ∈ startedBy (exec init as).2 s, r ∈ fetched (exec init (as ++ [a])).2 ↔ r ∈ fetched (exec init as).2) := by
  have i := inv_reach as
  rw [exec_snoc]
  simp only
  refine ⟨?_, ?_, ?_⟩
  · rw [startedBy_snoc]
    have : startedBy [(a, (step (exec init as).1 a).2)] s = [] := by
      cases a <;> simp [startedBy]
      rename_i s' o
      have : s' ≠ s := fun e => ha (by rw [← e]; rfl)
      cases (step (exec init as).1 (Act.run s' o)).2 <;> simp [this]
    rw [this, List.append_nil]
  · unfold IsOpen
    rw [opened_snoc, closed_snoc]
    have h2 : (a, (step (exec init as).1 a).2) ≠ (.close s, .bool true) := by
      intro e; rw [Prod.mk.injEq] at e; exact ha (by rw [e.1]; rfl)
    simp [h2, hs]
  · intro r hr
    rw [fetched_snoc, List.mem_append]
    constructor
    · rintro (h | h)
      · exact h
      · exfalso
        cases a with
        | get s' r' =>
          have hne : s' ≠ s := fun e => ha (by rw [← e]; rfl)
          simp only [step] at h
          cases hl : lookup s' (exec init as).1.sessions with
          | none => rw [hl] at h; simp [fetched] at h
          | some l =>
            rw [hl] at h
            simp only at h
            have hopen : IsOpen (exec init as).2 s' := by
              by_cases ho : IsOpen (exec init as).2 s'
              · exact ho
              · rw [i.noLook s' ho] at hl; simp at hl
            rw [i.openLook s' hopen] at hl
            cases hl
            by_cases hc : (startedBy (exec init as).2 s').contains r'
            · rw [if_pos hc] at h
              cases hf : fetch r' (exec init as).1.completed with
              | none => rw [hf] at h; simp [fetched] at h
              | some d =>
                rw [hf] at h
                simp [fetched] at h
                subst h
                exact hne (i.disj s' s r (by simpa using hc) hr)
            · rw [if_neg hc] at h; simp [fetched] at h
        | start => simp [fetched] at h
        | run s' o => simp [fetched] at h
        | sources s' => simp [fetched] at h
        | status s' => simp [fetched] at h
        | close s' => simp [fetched] at h
        | finish r' z => simp [fetched] at h
    · exact Or.inl

/-- C41: whatever another session asks for (or the opening of a session), the answers to status and get_files of this session are
the same before and after. -/
theorem C41_others_have_no_effect (as : List Act) (a : Act) (s : Nat) (ho : IsOpen (exec init as).2 s) (ha : speaksFor a ≠ some s)
    (hf : ∀ (r : Nat) (z : Option Nat), a ≠ .finish r z) :
    (step (exec init (as ++ [a])).1 (.status s)).2 = (step (exec init as).1 (.status s)).2 ∧
    ∀ r : Nat, (step (exec init (as ++ [a])).1 (.get s r)).2 = (step (exec init as).1 (.get s r)).2 := by
  obtain ⟨f1, f2, f3⟩ := frame_facts as a s ha ho.1
  have ho' := f2.mpr ho
  have en : ended (exec init (as ++ [a])).2 = ended (exec init as).2 := by
    rw [exec_snoc]; simp only; rw [ended_snoc]
    have : ended [(a, (step (exec init as).1 a).2)] = [] := by
      cases a <;> simp [ended]
      exact absurd rfl (hf _ _)
    rw [this, List.append_nil]
  refine ⟨?_, ?_⟩
  · rw [C41_status _ s ho', C41_status _ s ho, en, f1]
    congr 1
    apply List.filter_congr
    intro r _
    rw [decide_eq_decide]
    exact and_congr_right (fun hr => not_congr (f3 r hr))
  · intro r
    have key : ∀ d, (step (exec init (as ++ [a])).1 (.get s r)).2 = .data d ↔ (step (exec init as).1 (.get s r)).2 = .data d := by
      intro d
      rw [(C41_get _ s r d ho').1, (C41_get _ s r d ho).1, f1, en]
      exact and_congr_right (fun hr => and_congr_right (fun _ => not_congr (f3 r hr)))
    by_cases hd : ∃ d, (step (exec init as).1 (.get s r)).2 = .data d
    · obtain ⟨d, hd⟩ := hd
      rw [hd]; exact (key d).mpr hd
    · rw [(C41_get _ s r 0 ho).2 (fun d e => hd ⟨d, e⟩), (C41_get _ s r 0 ho').2 (fun d e => hd ⟨d, (key d).mp e⟩)]

/-- C41: a request with a session that is not open (never opened, or closed) changes nothing and is answered with -1, False or an
error (status answers with an empty list when no run at all is waiting). -/
theorem C41_unknown_session (as : List Act) (s : Nat) (ho : ¬ IsOpen (exec init as).2 s) (a : Act) (ha : speaksFor a = some s) :
    (step (exec init as).1 a).1 = (exec init as).1 ∧
    (step (exec init as).1 a).2 ∈ [Out.refused, .bool false, .fault, .list []] := by
  have hl := (inv_reach as).noLook s ho
  cases a <;> simp only [speaksFor, Option.some.injEq, reduceCtorEq] at ha <;> subst ha <;> simp [step, hl]
  by_cases h : (exec init as).1.completed = [] <;> simp [h]

/-- C41: after close_session no result of a run of this session is left among those waiting. -/
theorem C41_close_erases (as : List Act) (s : Nat) (ho : IsOpen (exec init as).2 s) :
    (step (exec init as).1 (.close s)).2 = .bool true ∧
    ∀ e ∈ (step (exec init as).1 (.close s)).1.completed, e.1 ∉ startedBy (exec init as).2 s := by
  have i := inv_reach as
  simp only [step, i.openLook s ho]
  refine ⟨trivial, ?_⟩
  rw [eraseAll_eq _ i.cnodup]
  intro e he
  have := (List.mem_filter.mp he).2
  simpa using this

/-- C41 (finding): a run that ends after its session was closed stays among the results for good: no session can fetch or erase it. -/
theorem C41_orphan_witness :
    ∃ as : List Act, (exec init as).1.sessions = [] ∧ (exec init as).1.completed = [(1, some 7)] :=
  ⟨[.start, .run 0 .started, .close 0, .finish 1 (some 7)], by decide, by decide⟩

example : (step (exec init [.start, .start, .run 0 .started, .run 1 .started, .run 0 .started, .finish 3 (some 8), .finish 2 none,
    .finish 1 (some 9), .get 1 3, .get 0 3]).1 (.status 0)).2 = .list [1] := by decide

end Props.Server
