import Verif.Spec.Results
import Mathlib.Data.List.Forall2
import Mathlib.Tactic.Tauto
import Mathlib.Tactic.Push
import Mathlib.Tactic.Linarith
import Mathlib.Algebra.Order.Ring.Rat
/-
C91: the results of a tolerance analysis.
-/
namespace Props.Results
open Model.Results Spec.Results

variable {X : Type}

theorem lookup_addCol (d : Cols X) (c : Str × List (Val X)) (k : Str) :
    (addCol d c).lookup k = if k = c.1 then some ((d.lookup k).getD [] ++ c.2) else d.lookup k := by
  induction d with
  | nil =>
    obtain ⟨a, l⟩ := c
    unfold addCol
    by_cases h : k = a
    · subst h; simp
    · rw [if_neg h]
      simp [List.lookup_cons, beq_eq_false_iff_ne.2 h]
  | cons e r ih =>
    obtain ⟨a, l⟩ := e
    unfold addCol
    by_cases h1 : a = c.1
    · rw [if_pos h1]
      by_cases h : k = c.1
      · rw [if_pos h, h]
        subst h1
        simp
      · rw [if_neg h]
        simp only [List.lookup_cons, beq_eq_false_iff_ne.2 (show k ≠ a from fun hh => h (hh.trans h1))]
    · rw [if_neg h1]
      by_cases h : k = a
      · subst h
        rw [if_neg h1]
        simp
      · simp only [List.lookup_cons, beq_eq_false_iff_ne.2 h, ih]

theorem lookup_absent (k : Str) : ∀ d : Cols X, k ∉ d.map Prod.fst → d.lookup k = none := by
  intro d
  induction d with
  | nil => intro _; rfl
  | cons e r ih =>
    obtain ⟨a, c⟩ := e
    intro h
    simp only [List.map_cons, List.mem_cons, not_or] at h
    simp only [List.lookup_cons, beq_eq_false_iff_ne.2 h.1, ih h.2]

/-- After the columns `l` were added: what was there, then what came. -/
theorem lookup_fold (k : Str) : ∀ (l d : Cols X), (l.map Prod.fst).Nodup →
    ((l.foldl addCol d).lookup k).getD [] = (d.lookup k).getD [] ++ (l.lookup k).getD [] ∧
    ((l.foldl addCol d).lookup k).isSome = ((d.lookup k).isSome || (l.lookup k).isSome) := by
  intro l
  induction l with
  | nil => intro d _; simp
  | cons e r ih =>
    intro d hn
    obtain ⟨a, c⟩ := e
    simp only [List.map_cons, List.nodup_cons] at hn
    rw [List.foldl_cons]
    obtain ⟨h1, h2⟩ := ih (addCol d (a, c)) hn.2
    rw [h1, h2, lookup_addCol]
    by_cases h : k = a
    · subst h
      have h0 : r.lookup k = none := lookup_absent k r hn.1
      simp [h0]
    · rw [if_neg h]
      simp [List.lookup_cons, beq_eq_false_iff_ne.2 h]

theorem addCol_ne (d : Cols X) (c : Str × List (Val X)) : (addCol d c).isEmpty = false := by
  cases d with
  | nil => rfl
  | cons e r => unfold addCol; split_ifs <;> rfl

theorem fold_empty : ∀ (l d : Cols X), (l.foldl addCol d).isEmpty = (d.isEmpty && l.isEmpty) := by
  intro l
  induction l with
  | nil => intro d; simp
  | cons e r ih => intro d; rw [List.foldl_cons, ih, addCol_ne]; simp

/-- The logs put together. -/
def merged (ls : List (Log X)) : Log X := ls.foldl (fun d l => addLogData d (some l)) ⟨[], [], 0⟩

theorem merged_from (name : Str) : ∀ (ls : List (Log X)) (d : Log X), (∀ l ∈ ls, Distinct l) →
    (((ls.foldl (fun d l => addLogData d (some l)) d).stepset.lookup name).getD [] = (d.stepset.lookup name).getD [] ++ values name Log.stepset ls ∧
     ((ls.foldl (fun d l => addLogData d (some l)) d).stepset.lookup name).isSome = ((d.stepset.lookup name).isSome || ls.any (fun l => (l.stepset.lookup name).isSome))) ∧
    (((ls.foldl (fun d l => addLogData d (some l)) d).dataset.lookup name).getD [] = (d.dataset.lookup name).getD [] ++ values name Log.dataset ls ∧
     ((ls.foldl (fun d l => addLogData d (some l)) d).dataset.lookup name).isSome = ((d.dataset.lookup name).isSome || ls.any (fun l => (l.dataset.lookup name).isSome))) ∧
    (ls.foldl (fun d l => addLogData d (some l)) d).stepCount = d.stepCount + (ls.map Log.stepCount).sum ∧
    (ls.foldl (fun d l => addLogData d (some l)) d).stepset.isEmpty = (d.stepset.isEmpty && ls.all (fun l => l.stepset.isEmpty)) ∧
    (ls.foldl (fun d l => addLogData d (some l)) d).dataset.isEmpty = (d.dataset.isEmpty && ls.all (fun l => l.dataset.isEmpty)) := by
  intro ls
  induction ls with
  | nil => intro d _; simp [values]
  | cons l r ih =>
    intro d hd
    have hl := hd l (by simp)
    obtain ⟨⟨s1, s2⟩, ⟨d1, d2⟩, c, e1, e2⟩ := ih (addLogData d (some l)) (fun x hx => hd x (by simp [hx]))
    obtain ⟨a1, a2⟩ := lookup_fold name l.stepset d.stepset hl.1
    obtain ⟨b1, b2⟩ := lookup_fold name l.dataset d.dataset hl.2
    rw [List.foldl_cons]
    refine ⟨⟨?_, ?_⟩, ⟨?_, ?_⟩, ?_, ?_, ?_⟩
    · rw [s1]; show ((l.stepset.foldl addCol d.stepset).lookup name).getD [] ++ _ = _
      rw [a1]; simp [values, List.append_assoc]
    · rw [s2]; show (((l.stepset.foldl addCol d.stepset).lookup name).isSome || _) = _
      rw [a2]; simp [Bool.or_assoc]
    · rw [d1]; show ((l.dataset.foldl addCol d.dataset).lookup name).getD [] ++ _ = _
      rw [b1]; simp [values, List.append_assoc]
    · rw [d2]; show (((l.dataset.foldl addCol d.dataset).lookup name).isSome || _) = _
      rw [b2]; simp [Bool.or_assoc]
    · rw [c]; show d.stepCount + l.stepCount + _ = _
      simp [Nat.add_assoc]
    · rw [e1]; show ((l.stepset.foldl addCol d.stepset).isEmpty && _) = _
      rw [fold_empty]; simp [Bool.and_assoc]
    · rw [e2]; show ((l.dataset.foldl addCol d.dataset).isEmpty && _) = _
      rw [fold_empty]; simp [Bool.and_assoc]

theorem readAll_merged (files : Files X) (found : Nat → Option (Log X)) (hr : Readable files found) : ∀ (sims : List (Option Nat)) (d : Log X),
    readAll files d sims = .ok ((logs found sims).foldl (fun d l => addLogData d (some l)) d) := by
  intro sims
  induction sims with
  | nil => intro d; rfl
  | cons o r ih =>
    intro d
    cases o with
    | none => unfold readAll; rw [ih]; rfl
    | some n =>
      unfold readAll
      rw [hr n]
      simp only
      rw [ih]
      cases h : found n with
      | none => simp [logs, h, addLogData]
      | some l => simp [logs, h]

/-- The name of the first column of the first log with a measurement. -/
theorem first_col : ∀ (ls : List (Log X)) (d : Log X), 
    ((ls.foldl (fun d l => addLogData d (some l)) d).dataset.map Prod.fst).head? = ((d.dataset.map Prod.fst).head?.or ((ls.flatMap (fun l => l.dataset.map Prod.fst)).head?)) := by
  have h1 : ∀ (d : Cols X) (c : Str × List (Val X)), ((addCol d c).map Prod.fst).head? = (d.map Prod.fst).head?.or (some c.1) := by
    intro d c
    cases d with
    | nil => rfl
    | cons e r => unfold addCol; split_ifs <;> rfl
  have h2 : ∀ (l d : Cols X), ((l.foldl addCol d).map Prod.fst).head? = (d.map Prod.fst).head?.or (l.map Prod.fst).head? := by
    intro l
    induction l with
    | nil => intro d; simp
    | cons e r ih =>
      intro d; rw [List.foldl_cons, ih, h1]
      cases (d.map Prod.fst).head? <;> simp
  intro ls
  induction ls with
  | nil => intro d; simp
  | cons l r ih =>
    intro d
    rw [List.foldl_cons, ih]
    show (((l.dataset.foldl addCol d.dataset).map Prod.fst).head?).or _ = _
    rw [h2, List.flatMap_cons, List.head?_append, Option.or_assoc]

/-! ### Reading -/

/-- C91: before an analysis or a testbench was executed there are no results, and asking changes nothing. -/
theorem C91_not_before (py : Py X) (files : Files X) (st : St X) (ha : st.analysis = false) (ht : st.testbench = false) :
    readLogfiles py files st = (st, .error .runtime) := by
  unfold readLogfiles
  rw [if_pos ⟨ha, ht⟩]

theorem read_new (py : Py X) (files : Files X) (found : Nat → Option (Log X)) (hr : Readable files found) (st : St X)
    (hx : st.analysis = true ∨ st.testbench = true) (hc : st.cached = false) :
    readLogfiles py files st = (match numberRuns py (merged (logs found st.sims)) with
      | .error e => ({ st with data := merged (logs found st.sims) }, .error e)
      | .ok d' => ({ st with data := d', cached := true }, .ok d')) := by
  unfold readLogfiles
  rw [if_neg (by rintro ⟨h1, h2⟩; rcases hx with h | h <;> simp_all)]
  rw [hc]
  simp only [Bool.false_eq_true, if_false]
  rw [readAll_merged files found hr]
  rfl

/-- C91: the measurements are those of the logs that could be read, in the order of the runs, a column for every name that occurs. -/
theorem C91_measurements (py : Py X) (files : Files X) (found : Nat → Option (Log X)) (hr : Readable files found) (st : St X)
    (hx : st.analysis = true ∨ st.testbench = true) (hc : st.cached = false) (hd : ∀ l ∈ logs found st.sims, Distinct l)
    (st' : St X) (d : Log X) (h : readLogfiles py files st = (st', .ok d)) (name : Str) :
    (d.dataset.lookup name).getD [] = values name Log.dataset (logs found st.sims) ∧
    ((d.dataset.lookup name).isSome = true ↔ ∃ l ∈ logs found st.sims, (l.dataset.lookup name).isSome = true) := by
  rw [read_new py files found hr st hx hc] at h
  obtain ⟨_, ⟨m1, m2⟩, _, _, _⟩ := merged_from name (logs found st.sims) ⟨[], [], 0⟩ hd
  have hds : ∀ d', numberRuns py (merged (logs found st.sims)) = .ok d' → d'.dataset = (merged (logs found st.sims)).dataset := by
    intro d' hn
    unfold numberRuns at hn
    split_ifs at hn
    · split at hn
      · split at hn
        · simp at hn
        · simp only [Except.ok.injEq] at hn; subst hn; rfl
      · split at hn
        · simp at hn
        · simp only [Except.ok.injEq] at hn; subst hn; rfl
    · simp only [Except.ok.injEq] at hn; subst hn; rfl
  cases hn : numberRuns py (merged (logs found st.sims)) with
  | error e => rw [hn] at h; simp at h
  | ok d' =>
    rw [hn] at h
    simp only [Prod.mk.injEq, Except.ok.injEq] at h
    obtain ⟨_, rfl⟩ := h
    rw [hds d' hn]
    constructor
    · exact m1
    · show ((merged (logs found st.sims)).dataset.lookup name).isSome = true ↔ _
      unfold merged
      rw [m2]
      simp

/-- C91: if the logs have steps, the steps of the results are theirs, in the order of the runs. -/
theorem C91_steps (py : Py X) (files : Files X) (found : Nat → Option (Log X)) (hr : Readable files found) (st : St X)
    (hx : st.analysis = true ∨ st.testbench = true) (hc : st.cached = false) (hd : ∀ l ∈ logs found st.sims, Distinct l)
    (hs : ∃ l ∈ logs found st.sims, l.stepset ≠ []) :
    ∃ d, (readLogfiles py files st).2 = .ok d ∧ d.stepCount = ((logs found st.sims).map Log.stepCount).sum ∧
      ∀ name, (d.stepset.lookup name).getD [] = values name Log.stepset (logs found st.sims) := by
  rw [read_new py files found hr st hx hc]
  have he : (merged (logs found st.sims)).stepset.isEmpty = false := by
    obtain ⟨_, _, _, h, _⟩ := merged_from [] (logs found st.sims) ⟨[], [], 0⟩ hd
    unfold merged
    rw [h]
    obtain ⟨l, h1, h2⟩ := hs
    rw [Bool.and_eq_false_iff]
    right
    rw [List.all_eq_false]
    exact ⟨l, h1, by simpa using h2⟩
  refine ⟨merged (logs found st.sims), ?_, ?_, ?_⟩
  · have : numberRuns py (merged (logs found st.sims)) = .ok (merged (logs found st.sims)) := by
      unfold numberRuns
      rw [he]; rfl
    rw [this]
  · obtain ⟨_, _, h, _⟩ := merged_from [] (logs found st.sims) ⟨[], [], 0⟩ hd
    unfold merged
    rw [h]; simp
  · intro name
    obtain ⟨⟨h, _⟩, _⟩ := merged_from name (logs found st.sims) ⟨[], [], 0⟩ hd
    unfold merged
    rw [h]; simp

/-- C91: if no log has steps, the results have one stepped variable, run: the measured values of runm, rounded if the first is complex; without them, the
numbers 0, 1, 2, … for the values of the first measurement. Without any measurement, reading fails. -/
theorem C91_run_numbers (py : Py X) (files : Files X) (found : Nat → Option (Log X)) (hr : Readable files found) (st : St X)
    (hx : st.analysis = true ∨ st.testbench = true) (hc : st.cached = false) (hd : ∀ l ∈ logs found st.sims, Distinct l)
    (hs : ∀ l ∈ logs found st.sims, l.stepset = []) :
    (∀ v r, values "runm".toList Log.dataset (logs found st.sims) = v :: r → isComplex v = false →
      ∃ d, (readLogfiles py files st).2 = .ok d ∧ d.stepset = [("run".toList, v :: r)]) ∧
    (∀ v r ns, values "runm".toList Log.dataset (logs found st.sims) = v :: r → isComplex v = true → List.Forall₂ (fun x n => roundReal py x = .ok n) (v :: r) ns →
      ∃ d, (readLogfiles py files st).2 = .ok d ∧ d.stepset = [("run".toList, ns)]) ∧
    (∀ name, values "runm".toList Log.dataset (logs found st.sims) = [] → ((logs found st.sims).flatMap (fun l => l.dataset.map Prod.fst)).head? = some name →
      ∃ d, (readLogfiles py files st).2 = .ok d ∧ d.stepset = [("run".toList, counted (values name Log.dataset (logs found st.sims)).length)]) ∧
    ((∀ l ∈ logs found st.sims, l.dataset = []) → (readLogfiles py files st).2 = .error .stop) := by
  rw [read_new py files found hr st hx hc]
  obtain ⟨_, ⟨m1, m2⟩, _, e1, e2⟩ := merged_from "runm".toList (logs found st.sims) ⟨[], [], 0⟩ hd
  have he : (merged (logs found st.sims)).stepset.isEmpty = true := by
    unfold merged
    rw [e1]
    simp only [List.isEmpty_nil, Bool.true_and, List.all_eq_true]
    intro l hl
    rw [hs l hl]; rfl
  have hm : ((merged (logs found st.sims)).dataset.lookup "runm".toList).getD [] = values "runm".toList Log.dataset (logs found st.sims) := m1
  have key : ∀ v r, values "runm".toList Log.dataset (logs found st.sims) = v :: r →
      (merged (logs found st.sims)).dataset.lookup "runm".toList = some (v :: r) := by
    intro v r h
    rw [h] at hm
    cases hl : (merged (logs found st.sims)).dataset.lookup "runm".toList with
    | none => rw [hl] at hm; simp at hm
    | some c => rw [hl] at hm; rw [← hm]; rfl
  have hnum : ∀ v r, values "runm".toList Log.dataset (logs found st.sims) = v :: r → numberRuns py (merged (logs found st.sims)) =
      (match runColumn py (v :: r) with
      | .error e => .error e
      | .ok c => .ok { (merged (logs found st.sims)) with stepset := [("run".toList, c)], stepCount := 1 }) := by
    intro v r h
    unfold numberRuns
    rw [he, if_pos rfl, key v r h]
    rfl
  refine ⟨?_, ?_, ?_, ?_⟩
  · intro v r h hv
    rw [hnum v r h]
    have : runColumn py (v :: r) = .ok (v :: r) := by unfold runColumn; simp only; rw [hv]; rfl
    rw [this]
    exact ⟨_, rfl, rfl⟩
  · intro v r ns h hv hf
    rw [hnum v r h]
    have he : ∀ (l ns : List (Val X)), List.Forall₂ (fun x n => roundReal py x = .ok n) l ns → each (roundReal py) l = .ok ns := by
      intro l ns hf
      induction hf with
      | nil => rfl
      | cons h1 _ ih => unfold each; rw [h1]; simp only; rw [ih]
    have : runColumn py (v :: r) = .ok ns := by unfold runColumn; simp only; rw [hv, if_pos rfl]; exact he _ _ hf
    rw [this]
    exact ⟨_, rfl, rfl⟩
  · intro name hv hn
    rw [hv] at hm
    have hfc := first_col (logs found st.sims) ⟨[], [], 0⟩
    rw [hn] at hfc
    simp only [List.map_nil, List.head?_nil, Option.none_or] at hfc
    change ((merged (logs found st.sims)).dataset.map Prod.fst).head? = some name at hfc
    obtain ⟨_, ⟨n1, _⟩, _⟩ := merged_from name (logs found st.sims) ⟨[], [], 0⟩ hd
    change ((merged (logs found st.sims)).dataset.lookup name).getD [] = [] ++ values name Log.dataset (logs found st.sims) at n1
    cases hD : (merged (logs found st.sims)).dataset with
    | nil => rw [hD] at hfc; simp at hfc
    | cons e r =>
      obtain ⟨a, c⟩ := e
      rw [hD] at hfc n1
      simp only [List.map_cons, List.head?_cons, Option.some.injEq] at hfc
      subst hfc
      have hc2 : values a Log.dataset (logs found st.sims) = c := by rw [List.nil_append] at n1; rw [← n1]; simp
      have : numberRuns py (merged (logs found st.sims)) =
          .ok { (merged (logs found st.sims)) with stepset := [("run".toList, Model.Results.range 0 c.length)], stepCount := 1 } := by
        unfold numberRuns
        rw [he, if_pos rfl]
        split
        · rename_i v r' hl
          rw [hl] at hm; simp at hm
        · simp only [hD]
      rw [this]
      refine ⟨_, rfl, ?_⟩
      simp only
      rw [hc2]
      unfold Model.Results.range counted
      simp
  · intro hemp
    have hD : (merged (logs found st.sims)).dataset = [] := by
      have : (merged (logs found st.sims)).dataset.isEmpty = true := by
        unfold merged
        rw [e2]
        simp only [List.isEmpty_nil, Bool.true_and, List.all_eq_true]
        intro l hl
        rw [hemp l hl]; rfl
      simpa using this
    have : numberRuns py (merged (logs found st.sims)) = .error .stop := by
      unfold numberRuns
      rw [he, if_pos rfl, hD]
      rfl
    rw [this]

/-! ### Histories -/

theorem exec_sims (py : Py X) : ∀ (ops : List (Op X)) (st : St X), (∀ o ∈ ops, (∀ f, o ≠ .read f) ∧ o ≠ .clear) →
    (exec py st ops).sims = st.sims ++ runs ops ∧ (exec py st ops).cached = st.cached ∧
    (st.analysis = true → (exec py st ops).analysis = true) ∧ (st.testbench = true → (exec py st ops).testbench = true) ∧
    ((.endAnalysis ∈ ops → (exec py st ops).analysis = true) ∧ (.endTestbench false ∈ ops → (exec py st ops).testbench = true)) := by
  intro ops
  induction ops with
  | nil => intro st _; simp [exec, runs]
  | cons o r ih =>
    intro st h
    have hr := ih (step py st o) (fun x hx => h x (by simp [hx]))
    have ho := h o (by simp)
    unfold exec at hr ⊢
    rw [List.foldl_cons]
    obtain ⟨a, b, c, d, e, f⟩ := hr
    cases o with
    | clear => exact absurd rfl ho.2
    | read g => exact absurd rfl (ho.1 g)
    | run n =>
      refine ⟨?_, b, c, d, ?_, ?_⟩
      · rw [a]; simp [step, runs]
      · intro hm; exact e (by simpa using hm)
      · intro hm; exact f (by simpa using hm)
    | endAnalysis =>
      refine ⟨by rw [a]; rfl, b, fun _ => c rfl, d, fun _ => c rfl, ?_⟩
      intro hm; exact f (by simpa using hm)
    | endTestbench cb =>
      cases cb with
      | true =>
        refine ⟨by rw [a]; rfl, b, c, d, ?_, ?_⟩
        · intro hm; exact e (by simpa using hm)
        · intro hm; exact f (by simpa using hm)
      | false =>
        refine ⟨by rw [a]; rfl, b, c, fun _ => d rfl, ?_, fun _ => d rfl⟩
        intro hm; exact e (by simpa using hm)

/-- C91: the results are those of the runs since the last analysis began: whatever happened before, after a new analysis began, runs were started and it ended,
reading looks at the logs of exactly these runs. -/
theorem C91_this_analysis (py : Py X) (st : St X) (ops : List (Op X)) (h : ∀ o ∈ ops, (∀ f, o ≠ .read f) ∧ o ≠ .clear)
    (he : .endAnalysis ∈ ops ∨ .endTestbench false ∈ ops) :
    let st' := exec py (step py st .clear) ops
    st'.sims = runs ops ∧ st'.cached = false ∧ (st'.analysis = true ∨ st'.testbench = true) := by
  obtain ⟨a, b, _, _, e, f⟩ := exec_sims py ops (step py st .clear) h
  refine ⟨by rw [a]; rfl, by rw [b]; rfl, ?_⟩
  rcases he with h | h
  · exact .inl (e h)
  · exact .inr (f h)

theorem kept_step (py : Py X) (st : St X) (o : Op X) (hc : st.cached = true) (hx : st.analysis = true ∨ st.testbench = true) (ho : o ≠ .clear) :
    (step py st o).cached = true ∧ (step py st o).data = st.data ∧ ((step py st o).analysis = true ∨ (step py st o).testbench = true) := by
  cases o with
  | clear => exact absurd rfl ho
  | run n => exact ⟨hc, rfl, hx⟩
  | endAnalysis => exact ⟨hc, rfl, .inl rfl⟩
  | endTestbench cb =>
    cases cb with
    | true => exact ⟨hc, rfl, hx⟩
    | false => exact ⟨hc, rfl, .inr rfl⟩
  | read f =>
    have : (readLogfiles py f st).1 = st := by
      unfold readLogfiles
      rw [if_neg (by rintro ⟨h1, h2⟩; rcases hx with h | h <;> simp_all), hc]
      rfl
    show (readLogfiles py f st).1.cached = true ∧ (readLogfiles py f st).1.data = st.data ∧ _
    rw [this]
    refine ⟨hc, rfl, ?_⟩
    show (readLogfiles py f st).1.analysis = true ∨ (readLogfiles py f st).1.testbench = true
    rw [this]; exact hx

/-- C91: once read, the results stay the same until the next analysis begins, whatever happens to the log files and however often they are read. -/
theorem C91_kept (py : Py X) (files : Files X) (st st' : St X) (d : Log X) (h : readLogfiles py files st = (st', .ok d))
    (ops : List (Op X)) (ho : ∀ o ∈ ops, o ≠ .clear) (files' : Files X) : (readLogfiles py files' (exec py st' ops)).2 = .ok d := by
  have h0 : st'.cached = true ∧ st'.data = d ∧ (st'.analysis = true ∨ st'.testbench = true) := by
    unfold readLogfiles at h
    by_cases h1 : st.analysis = false ∧ st.testbench = false
    · rw [if_pos h1] at h; simp at h
    · have hx : st.analysis = true ∨ st.testbench = true := by
        cases ha : st.analysis <;> cases ht : st.testbench <;> simp_all
      rw [if_neg h1] at h
      by_cases hc : st.cached = true
      · rw [if_pos hc] at h
        simp only [Prod.mk.injEq, Except.ok.injEq] at h
        obtain ⟨rfl, rfl⟩ := h
        exact ⟨hc, rfl, hx⟩
      · rw [if_neg hc] at h
        split at h
        · simp at h
        · split at h
          · simp at h
          · simp only [Prod.mk.injEq, Except.ok.injEq] at h
            obtain ⟨rfl, rfl⟩ := h
            exact ⟨rfl, rfl, hx⟩
  have hall : ∀ (ops : List (Op X)) (s : St X), (∀ o ∈ ops, o ≠ .clear) → s.cached = true ∧ s.data = d ∧ (s.analysis = true ∨ s.testbench = true) →
      (exec py s ops).cached = true ∧ (exec py s ops).data = d ∧ ((exec py s ops).analysis = true ∨ (exec py s ops).testbench = true) := by
    intro ops
    induction ops with
    | nil => intro s _ h; exact h
    | cons o r ih =>
      intro s ho hs
      unfold exec
      rw [List.foldl_cons]
      obtain ⟨k1, k2, k3⟩ := kept_step py s o hs.1 hs.2.2 (ho o (by simp))
      exact ih (step py s o) (fun x hx => ho x (by simp [hx])) ⟨k1, k2.trans hs.2.1, k3⟩
  obtain ⟨k1, k2, k3⟩ := hall ops st' ho h0
  unfold readLogfiles
  rw [if_neg (by rintro ⟨h1, h2⟩; rcases k3 with h | h <;> simp_all), if_pos k1, k2]

/-! ### Questions -/

theorem min_spec (py : Py X) (key : Val X → Rat) : ∀ (r : List (Val X)) (c : Val X), (∀ a ∈ c :: r, ∀ b ∈ c :: r, py.less a b = some (decide (key a < key b))) →
    ∃ m, pyMin py c r = .ok m ∧ m ∈ c :: r ∧ ∀ x ∈ c :: r, key m ≤ key x := by
  intro r
  induction r with
  | nil => intro c _; exact ⟨c, rfl, by simp, by simp⟩
  | cons v r ih =>
    intro c h
    unfold pyMin
    rw [h v (by simp) c (by simp)]
    by_cases hv : key v < key c
    · rw [decide_eq_true hv]
      obtain ⟨m, h1, h2, h3⟩ := ih v (fun a ha b hb => h a (by simp at ha ⊢; tauto) b (by simp at hb ⊢; tauto))
      refine ⟨m, h1, by simp at h2 ⊢; tauto, ?_⟩
      intro x hx
      rcases List.mem_cons.1 hx with rfl | hx
      · exact le_trans (h3 v (by simp)) (le_of_lt hv)
      · exact h3 x hx
    · rw [decide_eq_false hv]
      obtain ⟨m, h1, h2, h3⟩ := ih c (fun a ha b hb => h a (by simp at ha ⊢; tauto) b (by simp at hb ⊢; tauto))
      refine ⟨m, h1, by simp at h2 ⊢; tauto, ?_⟩
      intro x hx
      simp only [List.mem_cons] at hx
      rcases hx with rfl | rfl | hx
      · exact h3 _ (by simp)
      · exact le_trans (h3 c (by simp)) (not_lt.1 hv)
      · exact h3 x (by simp [hx])

theorem max_spec (py : Py X) (key : Val X → Rat) : ∀ (r : List (Val X)) (c : Val X), (∀ a ∈ c :: r, ∀ b ∈ c :: r, py.less a b = some (decide (key a < key b))) →
    ∃ m, pyMax py c r = .ok m ∧ m ∈ c :: r ∧ ∀ x ∈ c :: r, key x ≤ key m := by
  intro r
  induction r with
  | nil => intro c _; exact ⟨c, rfl, by simp, by simp⟩
  | cons v r ih =>
    intro c h
    unfold pyMax
    rw [h c (by simp) v (by simp)]
    by_cases hv : key c < key v
    · rw [decide_eq_true hv]
      obtain ⟨m, h1, h2, h3⟩ := ih v (fun a ha b hb => h a (by simp at ha ⊢; tauto) b (by simp at hb ⊢; tauto))
      refine ⟨m, h1, by simp at h2 ⊢; tauto, ?_⟩
      intro x hx
      rcases List.mem_cons.1 hx with rfl | hx
      · exact le_trans (le_of_lt hv) (h3 v (by simp))
      · exact h3 x hx
    · rw [decide_eq_false hv]
      obtain ⟨m, h1, h2, h3⟩ := ih c (fun a ha b hb => h a (by simp at ha ⊢; tauto) b (by simp at hb ⊢; tauto))
      refine ⟨m, h1, by simp at h2 ⊢; tauto, ?_⟩
      intro x hx
      simp only [List.mem_cons] at hx
      rcases hx with rfl | rfl | hx
      · exact h3 _ (by simp)
      · exact le_trans (not_lt.1 hv) (h3 c (by simp))
      · exact h3 x (by simp [hx])

/-- C91: the measurement asked for, in any case, is the column of the results; before the analysis was executed the answer is None; a name that was not
measured is an IndexError. -/
theorem C91_measurement (py : Py X) (files : Files X) (name : Str) (st : St X) :
    (st.analysis = false → analyseMeasurement py files name st = (st, .ok none) ∧ getMinMax py files name st = (st, .ok none)) ∧
    (∀ st' d, st.analysis = true → readLogfiles py files st = (st', .ok d) →
      (∀ col, d.stepset.lookup (name.map Char.toLower) = some col ∨ (d.stepset.lookup (name.map Char.toLower) = none ∧ d.dataset.lookup (name.map Char.toLower) = some col) →
        analyseMeasurement py files name st = (st', .ok (some col))) ∧
      (d.stepset.lookup (name.map Char.toLower) = none → d.dataset.lookup (name.map Char.toLower) = none →
        analyseMeasurement py files name st = (st', .error .index) ∧ getMinMax py files name st = (st', .error .index))) := by
  constructor
  · intro h
    unfold analyseMeasurement getMinMax
    rw [if_pos h, if_pos h]
    exact ⟨rfl, rfl⟩
  · intro st' d ha hr
    have hna : ¬ st.analysis = false := by rw [ha]; decide
    constructor
    · intro col hcol
      unfold analyseMeasurement
      rw [if_neg hna, hr]
      simp only
      unfold column
      rcases hcol with h | ⟨h1, h2⟩
      · rw [h]; rfl
      · rw [h1, h2]; rfl
    · intro h1 h2
      unfold analyseMeasurement getMinMax
      rw [if_neg hna, if_neg hna, hr]
      simp only
      have : column d name = .error .index := by unfold column; rw [h1, h2]
      rw [this]
      exact ⟨rfl, rfl⟩

/-- C91: the extremes of a measurement are values that were measured, and every measured value is between them; they are given only if there is one value for every
simulation of the analysis. -/
theorem C91_extremes (py : Py X) (files : Files X) (name : Str) (st st' : St X) (d : Log X) (ha : st.analysis = true) (hr : readLogfiles py files st = (st', .ok d))
    (col : List (Val X)) (hcol : column d name = .ok col) :
    (col.length ≠ st.sims.length → getMinMax py files name st = (st', .ok none)) ∧
    (∀ key : Val X → Rat, col.length = st.sims.length → col ≠ [] → (∀ a ∈ col, ∀ b ∈ col, py.less a b = some (decide (key a < key b))) →
      ∃ lo hi, getMinMax py files name st = (st', .ok (some (lo, hi))) ∧ lo ∈ col ∧ hi ∈ col ∧ ∀ x ∈ col, key lo ≤ key x ∧ key x ≤ key hi) := by
  have hna : ¬ st.analysis = false := by rw [ha]; decide
  constructor
  · intro hl
    unfold getMinMax
    rw [if_neg hna, hr]
    simp only
    rw [hcol]
    simp only
    rw [if_pos hl]
  · intro key hl hne hless
    cases col with
    | nil => exact absurd rfl hne
    | cons v r =>
      obtain ⟨lo, l1, l2, l3⟩ := min_spec py key r v hless
      obtain ⟨hi, h1, h2, h3⟩ := max_spec py key r v hless
      refine ⟨lo, hi, ?_, l2, h2, fun x hx => ⟨l3 x hx, h3 x hx⟩⟩
      unfold getMinMax
      rw [if_neg hna, hr]
      simp only
      rw [hcol]
      simp only
      rw [if_neg (by simpa using hl)]
      have : minMax py (v :: r) = .ok (lo, hi) := by unfold minMax; simp only; rw [l1]; simp only; rw [h1]
      rw [this]; rfl

/-! ### Logs added one by one -/

/-- A log of a single run with the given measurements. -/
def Single (names : List Str) (l : Log X) : Prop := l.stepset = [] ∧ l.dataset.map Prod.fst = names ∧ ∀ c ∈ l.dataset, c.2.length = 1

/-- Adding the logs of runs one after the other (fast_worst_case.py 145-155). -/
def addLogs (py : Py X) (files : Files X) (st : St X) (ns : List Nat) : St X := ns.foldl (fun s n => (addLog py files n false s).1) st

theorem counted_last (n : Nat) (h : 0 < n) : (counted n : List (Val X)).getLast? = some (.int ((n : Int) - 1)) := by
  obtain ⟨k, rfl⟩ : ∃ k, n = k + 1 := ⟨n - 1, by omega⟩
  unfold counted
  rw [List.range_succ, List.map_append]
  simp

theorem counted_succ (n : Nat) : (counted (n + 1) : List (Val X)) = counted n ++ [.int (n : Int)] := by
  unfold counted
  rw [List.range_succ, List.map_append]
  rfl

theorem add_one (py : Py X) (files : Files X) (names : List Str) (hn : names ≠ []) (hnd : names.Nodup) (hrun : "run".toList ∉ names) (st : St X) (k : Nat) (hk : 0 < k)
    (hs : st.data.stepset = [("run".toList, counted k)]) (n : Nat) (l : Log X) (hf : files n = .ok (some l)) (hl : Single names l) :
    (addLog py files n false st).1.data.stepset = [("run".toList, counted (k + 1))] ∧
    (∀ name, ((addLog py files n false st).1.data.dataset.lookup name).getD [] = (st.data.dataset.lookup name).getD [] ++ (l.dataset.lookup name).getD []) ∧
    ∃ l', (addLog py files n false st).2 = .ok (some l') := by
  obtain ⟨h1, h2, h3⟩ := hl
  have hlk : l.dataset.lookup "run".toList = none := lookup_absent _ _ (by rw [h2]; exact hrun)
  have hnext : nextRun st.data = .ok (k : Int) := by
    unfold nextRun
    rw [hs]
    simp only [List.isEmpty_cons, Bool.false_eq_true, if_false, List.lookup_cons, beq_self_eq_true]
    rw [counted_last k hk]
    simp
  obtain ⟨c0, hown⟩ : ∃ c0 : Val X, ownRuns py st.data l = .ok { l with stepset := [("run".toList, [.int (k : Int)])], stepCount := 1 } := by
    unfold ownRuns
    rw [h1, hlk]
    cases hD : l.dataset with
    | nil => rw [hD] at h2; exact absurd h2.symm hn
    | cons e r =>
      obtain ⟨a, col⟩ := e
      have hlen := h3 (a, col) (by rw [hD]; simp)
      refine ⟨.int 0, ?_⟩
      simp only [List.isEmpty_nil, if_true]
      rw [hnext]
      simp only
      rw [show col.length = 1 from hlen]
      simp [Model.Results.range]
  have hres : addLog py files n false st =
      ({ st with data := addLogData st.data (some { l with stepset := [("run".toList, [.int (k : Int)])], stepCount := 1 }) },
        .ok (some { l with stepset := [("run".toList, [.int (k : Int)])], stepCount := 1 })) := by
    unfold addLog
    rw [if_neg (by decide), hf]
    simp only
    rw [hown]
  rw [hres]
  refine ⟨?_, ?_, _, rfl⟩
  · show List.foldl addCol st.data.stepset [("run".toList, [Val.int (k : Int)])] = _
    rw [hs, counted_succ]
    simp [addCol]
  · intro name
    exact (lookup_fold name l.dataset st.data.dataset (by rw [h2]; exact hnd)).1

/-- C91: when the logs of further single runs are added one by one, the numbers of the runs go on 0, 1, 2, … and every measurement has, at the place of a run, the value
of that run. -/
theorem C91_added (py : Py X) (files : Files X) (found : Nat → Option (Log X)) (hr : Readable files found) (names : List Str) (hn : names ≠ []) (hnd : names.Nodup)
    (hrun : "run".toList ∉ names) (k : Nat) (hk : 0 < k) : ∀ (ns : List Nat) (st : St X), st.data.stepset = [("run".toList, counted k)] →
    (∀ n ∈ ns, ∃ l, found n = some l ∧ Single names l) →
    (addLogs py files st ns).data.stepset = [("run".toList, counted (k + ns.length))] ∧
    (∀ name, ((addLogs py files st ns).data.dataset.lookup name).getD [] =
      (st.data.dataset.lookup name).getD [] ++ values name Log.dataset (logs found (ns.map some))) := by
  intro ns
  induction ns generalizing k with
  | nil => intro st hs _; exact ⟨hs, fun name => by simp [addLogs, logs, values]⟩
  | cons n r ih =>
    intro st hs hall
    obtain ⟨l, hl1, hl2⟩ := hall n (by simp)
    obtain ⟨a, b, _⟩ := add_one py files names hn hnd hrun st k hk hs n l ((hr n).trans (by rw [hl1])) hl2
    obtain ⟨c, d⟩ := ih (k + 1) (by omega) (addLog py files n false st).1 a (fun m hm => hall m (by simp [hm]))
    have e : addLogs py files st (n :: r) = addLogs py files (addLog py files n false st).1 r := rfl
    rw [e]
    refine ⟨?_, ?_⟩
    · rw [c]
      congr 3
      simp only [List.length_cons]; omega
    · intro name
      rw [d name, b name]
      have hlog : logs found ((n :: r).map some) = l :: logs found (r.map some) := by
        unfold logs
        rw [List.map_cons, List.filterMap_cons]
        simp only [Option.bind_some, hl1]
      rw [hlog, List.append_assoc]
      rfl

/-! ### Instances and limits -/

def py0 : Py Int := { round := fun x => some x, less := fun a b => match a, b with | .int x, .int y => some (decide (x < y)) | _, _ => none }
def log1 (name : String) (v : Int) : Log Int := { stepset := [], dataset := [(name.toList, [.int v])], stepCount := 0 }
def found0 : Nat → Option (Log Int) := fun n => if n = 3 then none else some (log1 "gain" ((n : Int) * 10))
def files0 : Files Int := fun n => .ok (found0 n)
def gone : Files Int := fun _ => .ok none
def session : List (Op Int) := [.clear, .run (some 0), .run (some 1), .run (some 2), .endAnalysis]

/-- An instance of C91: three runs, results read, log files deleted, results asked again; then another log is added. -/
theorem C91_sample :
    (readLogfiles py0 files0 (exec py0 init session)).2.toOption =
      some ⟨[("run".toList, [.int 0, .int 1, .int 2])], [("gain".toList, [.int 0, .int 10, .int 20])], 1⟩ ∧
    (readLogfiles py0 gone (exec py0 init (session ++ [.read files0]))).2.toOption = (readLogfiles py0 files0 (exec py0 init session)).2.toOption ∧
    (getMinMax py0 files0 "GAIN".toList (exec py0 init session)).2.toOption = some (some (.int 0, .int 20)) ∧
    (addLogs py0 files0 (exec py0 init (session ++ [.read files0])) [5]).data =
      ⟨[("run".toList, [.int 0, .int 1, .int 2, .int 3])], [("gain".toList, [.int 0, .int 10, .int 20, .int 50])], 2⟩ ∧
    Readable files0 found0 ∧ (∀ l ∈ logs found0 (runs session), Distinct l) := by
  refine ⟨by decide +kernel, by decide +kernel, by decide +kernel, by decide +kernel, fun _ => rfl, ?_⟩
  intro l hl
  have : logs found0 (runs session) = [log1 "gain" 0, log1 "gain" 10, log1 "gain" 20] := by decide +kernel
  rw [this] at hl
  simp only [List.mem_cons, List.not_mem_nil, or_false] at hl
  rcases hl with rfl | rfl | rfl <;> simp [Distinct, log1]

/-- Limits of C91: after a testbench with a callback there are no results; once a testbench was executed, the results can be asked for as soon as another analysis
began, and fail for want of measurements; a run whose log cannot be read has no number, so the numbers of the later runs move; a run that failed gives None to add_log, a
run without a log file an AttributeError; complex measurements have no extremes. -/
theorem C91_limits :
    (readLogfiles py0 files0 (exec py0 init [.clear, .run (some 0), .endTestbench true])).2.toOption = none ∧
    (∃ e, (readLogfiles py0 files0 (exec py0 init [.clear, .run (some 0), .endTestbench false, .clear])).2 = .error e ∧ e = .stop) ∧
    (readLogfiles py0 files0 (exec py0 init [.clear, .run (some 3), .run (some 7), .endAnalysis])).2.toOption =
      some ⟨[("run".toList, [.int 0])], [("gain".toList, [.int 70])], 1⟩ ∧
    (addLog py0 files0 1 true init).2.toOption = some none ∧
    (∃ e, (addLog py0 files0 3 false init).2 = .error e ∧ e = .attr) ∧
    (minMax py0 [.cplx 1, .cplx 2]).toOption = none := by
  refine ⟨by decide +kernel, ⟨.stop, by rfl, rfl⟩, by decide +kernel, by decide +kernel, ⟨.attr, by rfl, rfl⟩, by decide +kernel⟩

end Props.Results
