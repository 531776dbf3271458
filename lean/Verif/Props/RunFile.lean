import Verif.Model.RunFile
import Verif.Props.RawMerge
import Mathlib.Data.List.Nodup
/-
C94: one RAW file with traces of several runs.
-/
namespace Props.RunFile
open Model.RunFile Spec.RawMerge Props.RawMerge
open Model.RawMerge (Err Source File Wave Pending addTraces consolidate mergeAxes mergeGo each pend Source.trace importAligned redo bring)
abbrev Str := List Char
variable {V U : Type} [AddCommGroup V] [Module ℚ V]

theorem adm_pos : (0 : ℚ) < adm := by unfold adm; norm_num

/-! ### Auxiliary facts -/

/-- Merging loses at most one point of the shorter axis. -/
theorem merge_length (g : ℚ) (a b : List ℚ) : min a.length b.length ≤ (mergeAxes g a b).length + 1 := by
  refine merge_ind (P := fun a b m => min a.length b.length ≤ m.length + 1) ?_ ?_ ?_ ?_ _ _ _ (le_refl _)
  · intro a b h; simp only [List.length_nil]; omega
  · intro a a' as b b' bs m _ ih; simp only [List.length_cons] at *; omega
  · intro a a' as b b' bs m _ _ ih; simp only [List.length_cons] at *; omega
  · intro a a' as b b' bs m _ _ ih; simp only [List.length_cons] at *; omega

theorem merge_same (g : ℚ) (hg : 0 < g) (xs : List ℚ) : ∀ (k n : Nat), (xs.take k).length + xs.length ≤ n →
    mergeGo g n (xs.take k) xs = xs.take (min k xs.length - 1) := by
  induction xs with
  | nil => intro k n _; cases n <;> simp [mergeGo]
  | cons x xs ih =>
    intro k n hn
    match k, n, xs, ih, hn with
    | 0, 0, xs, _, hn => simp [mergeGo]
    | 0, _ + 1, xs, _, hn => simp [mergeGo]
    | 1, 0, xs, _, hn => simp [mergeGo]
    | 1, _ + 1, xs, _, hn => simp [mergeGo]
    | k + 2, 0, xs, _, hn => simp at hn
    | k + 2, n + 1, [], _, hn => simp [mergeGo]
    | k + 2, n + 1, y :: ys, ih, hn =>
      have h1 := ih (k + 1) n (by simp only [List.take_succ_cons, List.length_cons] at hn ⊢; omega)
      simp only [List.take_succ_cons] at h1 ⊢
      unfold mergeGo
      rw [if_pos (by simpa using hg), h1]
      have : min (k + 2) (x :: y :: ys).length - 1 = (min (k + 1) (y :: ys).length - 1) + 1 := by
        simp only [List.length_cons]; omega
      rw [this, List.take_succ_cons]

theorem pend_all {tag : Option Str} {o : Source V} : ∀ (names : List Str) (w : File V), (∀ n ∈ names, ∃ d, o.traces.lookup n = some d) →
    ∃ ps, each (pend tag o) names w = .ok { w with pending := ps } := by
  intro names
  induction names with
  | nil => intro w _; exact ⟨w.pending, rfl⟩
  | cons n ns ih =>
    intro w h
    obtain ⟨d, hd⟩ := h n List.mem_cons_self
    have h1 : ∃ q, pend tag o w n = .ok { w with pending := q } := by
      unfold pend Source.trace
      rw [hd]; exact ⟨_, rfl⟩
    obtain ⟨q, h1⟩ := h1
    obtain ⟨ps, h2⟩ := ih { w with pending := q } (fun m hm => h m (List.mem_cons_of_mem _ hm))
    refine ⟨ps, ?_⟩
    unfold each
    rw [h1]; dsimp only
    rw [h2]

/-- The axis of the file so far. -/
def current (w : File V) (axis : List ℚ) : List ℚ := if w.newAxis = [] then axis else w.newAxis

theorem current_new (w : File V) (axis m : List ℚ) (qs : List (Pending V)) (hm : m ≠ []) :
    current { w with newAxis := m, pending := qs } axis = m := if_neg hm

/-- One aligned import succeeds. -/
theorem add_ok {g : ℚ} {tag : Option Str} {o : Source V} {save : List Str} {w : File V} {axis : List ℚ} (h0 : w.axis = some axis)
    (hc : w.complex = o.complex) (ht : w.axisType = o.axisType) (hs : save ≠ []) (hn : ∀ n ∈ save, ∃ d, o.traces.lookup n = some d) :
    ∃ ps, addTraces ⟨true, g, 0, tag⟩ o save w =
      .ok { w with newAxis := mergeAxes g (current w axis) (Axis0 o), pending := ps } := by
  obtain ⟨ps, h⟩ := pend_all (tag := tag) save { w with newAxis := mergeAxes g (current w axis) (Axis0 o) } hn
  refine ⟨ps, ?_⟩
  obtain ⟨c, an, aty, ax, tr, na, pe⟩ := w
  dsimp only at h0 hc ht
  subst h0
  unfold addTraces
  dsimp only
  rw [if_neg (by simp [hc]), if_neg (by simp [ht]), if_neg hs, if_pos rfl]
  unfold importAligned
  exact h

/-- The requests of the later runs. -/
def asked (save : List Str) : Nat → List (Task V U × Source V) → List (Request V)
  | _, [] => []
  | k, p :: ps => save.map (fun n => ⟨{ p.2 with id := k }, n, some (Model.PyStr.showNat p.1.runno)⟩) ++ asked save (k + 1) ps

theorem asked_ids (save : List Str) : ∀ (ps : List (Task V U × Source V)) (k : Nat), ∀ r ∈ asked save k ps, k ≤ r.source.id := by
  intro ps
  induction ps with
  | nil => intro k r hr; cases hr
  | cons p ps ih =>
    intro k r hr
    unfold asked at hr
    rcases List.mem_append.mp hr with hr | hr
    · obtain ⟨n, _, rfl⟩ := List.mem_map.mp hr; exact le_refl _
    · exact le_trans (Nat.le_succ k) (ih (k + 1) r hr)

theorem asked_nodup (save : List Str) (hs : save.Nodup) : ∀ (ps : List (Task V U × Source V)) (k : Nat),
    ((asked save k ps).map (fun r => (r.source.id, r.name))).Nodup := by
  intro ps
  induction ps with
  | nil => intro k; exact List.nodup_nil
  | cons p ps ih =>
    intro k
    unfold asked
    rw [List.map_append, List.nodup_append]
    refine ⟨?_, ih (k + 1), ?_⟩
    · rw [List.map_map]
      exact List.Nodup.map (fun a b h => (Prod.mk.inj h).2) hs
    · intro a ha b hb hab
      obtain ⟨r, hr, rfl⟩ := List.mem_map.mp hb
      have := asked_ids save ps (k + 1) r hr
      rw [List.map_map] at ha
      obtain ⟨n, _, rfl⟩ := List.mem_map.mp ha
      have := (Prod.mk.inj hab).1
      simp only at this
      omega

theorem asked_source (save : List Str) (P : Source V → Prop) (hP : ∀ o k, P o → P { o with id := k }) : ∀ (ps : List (Task V U × Source V)) (k : Nat),
    (∀ p ∈ ps, P p.2) → ∀ r ∈ asked save k ps, P r.source := by
  intro ps
  induction ps with
  | nil => intro k _ r hr; cases hr
  | cons p ps ih =>
    intro k h r hr
    unfold asked at hr
    rcases List.mem_append.mp hr with hr | hr
    · obtain ⟨n, _, rfl⟩ := List.mem_map.mp hr; exact hP _ _ (h p List.mem_cons_self)
    · exact ih (k + 1) (fun q hq => h q (List.mem_cons_of_mem _ hq)) r hr

/-- A source the later runs can be imported from. -/
def Fits (w : File V) (save : List Str) (o : Source V) : Prop :=
  w.complex = o.complex ∧ w.axisType = o.axisType ∧ ∀ n ∈ save, ∃ d, o.traces.lookup n = some d

/-- The loop over runs that all have a RAW file. -/
theorem runs_session {save : List Str} (hs : save ≠ []) {w0 : File V} {axis : List ℚ} : ∀ (ps : List (Task V U × Source V)) (k : Nat) (reqs : List (Request V))
    (w : File V) (ok : Bool), Session adm w0 reqs w → w.axis = some axis → (∀ p ∈ ps, p.1.raw = some (.ok p.2)) → (∀ p ∈ ps, Fits w save p.2) →
    ps.length + 1 ≤ (current w axis).length → (∀ p ∈ ps, ps.length + 1 ≤ (Axis0 p.2).length) →
    ∃ w', addRuns save k (ps.map Prod.fst) w ok = .ok (w', ok) ∧ Session adm w0 (reqs ++ asked save k ps) w' ∧
      current w' axis = ps.foldl (fun a p => mergeAxes adm a (Axis0 p.2)) (current w axis) := by
  intro ps
  induction ps with
  | nil =>
    intro k reqs w ok hse _ _ _ _ _
    exact ⟨w, rfl, by simpa [asked] using hse, rfl⟩
  | cons p ps ih =>
    intro k reqs w ok hse hax hraw hfit hlen hlens
    obtain ⟨f1, f2, f3⟩ := hfit p List.mem_cons_self
    obtain ⟨qs, e1⟩ := add_ok (g := adm) (tag := some (Model.PyStr.showNat p.1.runno)) (o := { p.2 with id := k }) hax f1 f2 hs f3
    have hm := merge_length adm (current w axis) (Axis0 p.2)
    have hl := hlens p List.mem_cons_self
    simp only [List.length_cons] at hlen hl
    have hax' : Axis0 { p.2 with id := k } = Axis0 p.2 := rfl
    rw [hax'] at e1
    have hne : mergeAxes adm (current w axis) (Axis0 p.2) ≠ [] := by
      intro e; rw [e] at hm; simp only [List.length_nil] at hm; omega
    obtain ⟨w', a1, a2, a3⟩ := ih (k + 1) (reqs ++ save.map (fun n => ⟨{ p.2 with id := k }, n, some (Model.PyStr.showNat p.1.runno)⟩))
      { w with newAxis := mergeAxes adm (current w axis) (Axis0 p.2), pending := qs } ok
      (Session.more _ save _ hse e1 hne) hax (fun q hq => hraw q (List.mem_cons_of_mem _ hq)) (fun q hq => hfit q (List.mem_cons_of_mem _ hq))
      (by rw [current_new w axis _ qs hne]; omega) (fun q hq => by have := hlens q (List.mem_cons_of_mem _ hq); simp only [List.length_cons] at this; omega)
    refine ⟨w', ?_, ?_, ?_⟩
    · rw [List.map_cons]
      unfold addRuns
      rw [hraw p List.mem_cons_self]; dsimp only
      rw [e1]; exact a1
    · rw [List.append_assoc] at a2
      exact a2
    · rw [a3, List.foldl_cons]
      congr 1
      exact current_new w axis _ qs hne

/-- The outcome of the loop with another value returned. -/
def mapFlag (b : Bool) : Except Fail (File V × Bool) → Except Fail (File V × Bool)
  | .error e => .error e
  | .ok (w, _) => .ok (w, b)

theorem runs_cons_none {save : List Str} {k : Nat} {t : Task V U} {ts : List (Task V U)} {w : File V} {ok : Bool} (h : t.raw = none) :
    addRuns save k (t :: ts) w ok = addRuns save k ts w false := by
  conv_lhs => unfold addRuns
  rw [h]

theorem runs_cons_error {save : List Str} {k : Nat} {t : Task V U} {ts : List (Task V U)} {w : File V} {ok : Bool} {e : Err} (h : t.raw = some (.error e)) :
    addRuns save k (t :: ts) w ok = .error (.raw e) := by
  conv_lhs => unfold addRuns
  rw [h]

theorem runs_cons_ok {save : List Str} {k : Nat} {t : Task V U} {ts : List (Task V U)} {w : File V} {ok : Bool} {o : Source V} (h : t.raw = some (.ok o)) :
    (∀ e, addTraces ⟨true, adm, 0, some (Model.PyStr.showNat t.runno)⟩ { o with id := k } save w = .error e →
      addRuns save k (t :: ts) w ok = .error (.raw e)) ∧
    (∀ w', addTraces ⟨true, adm, 0, some (Model.PyStr.showNat t.runno)⟩ { o with id := k } save w = .ok w' →
      addRuns save k (t :: ts) w ok = addRuns save (k + 1) ts w' ok) := by
  constructor
  · intro e he
    conv_lhs => unfold addRuns
    rw [h]; dsimp only
    rw [he]
  · intro e he
    conv_lhs => unfold addRuns
    rw [h]; dsimp only
    rw [he]

/-- Runs without a RAW file only change the value returned. -/
theorem runs_skip (save : List Str) : ∀ (ts : List (Task V U)) (k : Nat) (w : File V) (ok : Bool),
    addRuns save k ts w ok = mapFlag (ok && ts.all (fun t => t.raw.isSome)) (addRuns save k (ts.filter (fun t => t.raw.isSome)) w true) := by
  intro ts
  induction ts with
  | nil => intro k w ok; simp [addRuns, mapFlag]
  | cons t ts ih =>
    intro k w ok
    cases hr : t.raw with
    | none =>
      rw [List.filter_cons_of_neg (by simp [hr]), List.all_cons, hr, runs_cons_none hr, ih]
      simp
    | some x =>
      rw [List.filter_cons_of_pos (by simp [hr]), List.all_cons, hr]
      cases x with
      | error e => rw [runs_cons_error hr, runs_cons_error hr]; rfl
      | ok o =>
        cases ha : addTraces ⟨true, adm, 0, some (Model.PyStr.showNat t.runno)⟩ { o with id := k } save w with
        | error e => rw [(runs_cons_ok hr).1 e ha, (runs_cons_ok hr).1 e ha]; rfl
        | ok w' => rw [(runs_cons_ok hr).2 w' ha, (runs_cons_ok hr).2 w' ha, ih]; simp

/-! ### The file -/

/-- The trace `u` of the file shows the trace `name` of a run: named after both, and at every point of the axis of the file on the curve
of that run. -/
def Shows (new : List ℚ) (run : Task V U × Source V) (name : Str) (u : Wave V) : Prop :=
  Tagged (Model.PyStr.showNat run.1.runno) name u.name ∧
    ∃ d, run.2.traces.lookup name = some d ∧ List.Forall₂ (OnCurve (Axis0 run.2) (d.getD 0 [])) new u.data

/-- The trace `u` of the file is the trace `name` of a run, sample by sample. -/
def Same (run : Task V U × Source V) (name : Str) (u : Wave V) : Prop :=
  Tagged (Model.PyStr.showNat run.1.runno) name u.name ∧ ∃ d, run.2.traces.lookup name = some d ∧ u.data = d.getD 0 []

/-- The runs can be put in one file: all of one kind and with the traces asked for, axes that begin at `x0`, with points far enough apart
and at least as many of them as there are runs. -/
structure Together (x0 : ℚ) (save : List Str) (first : Task V U × Source V) (rest : List (Task V U × Source V)) : Prop where
  opened : ∀ p ∈ first :: rest, p.1.raw = some (.ok p.2)
  kind : ∀ p ∈ rest, p.2.complex = first.2.complex ∧ p.2.axisType = first.2.axisType
  traces : ∀ p ∈ first :: rest, ∀ n ∈ save, ∃ d, p.2.traces.lookup n = some d
  axes : ∀ p ∈ first :: rest, Mergeable adm x0 p.2
  points : ∀ p ∈ first :: rest, rest.length < (Axis0 p.2).length

/-- The axis of the file. -/
def mergedAxis (first : Task V U × Source V) (rest : List (Task V U × Source V)) : List ℚ :=
  rest.foldl (fun a p => mergeAxes adm a (Axis0 p.2)) (Axis0 first.2)

theorem forall2_split {α β : Type} {R : α → β → Prop} : ∀ {as bs : List α} {us : List β}, List.Forall₂ R (as ++ bs) us →
    ∃ vs ws, List.Forall₂ R as vs ∧ List.Forall₂ R bs ws ∧ us = vs ++ ws
  | [], _, us, h => ⟨[], us, List.Forall₂.nil, h, rfl⟩
  | a :: as, bs, _, h => by
    rw [List.cons_append] at h
    cases h with
    | cons h1 h2 =>
      obtain ⟨vs, ws, g1, g2, rfl⟩ := forall2_split h2
      exact ⟨_ :: vs, ws, List.Forall₂.cons h1 g1, g2, rfl⟩

theorem asked_shows {save : List Str} {new : List ℚ} : ∀ (ps : List (Task V U × Source V)) (k : Nat) (us : List (Wave V)),
    List.Forall₂ (Brought new) (asked save k ps) us →
    List.Forall₂ (fun (q : (Task V U × Source V) × Str) u => Shows new q.1 q.2 u) (ps.flatMap (fun p => save.map (fun n => (p, n)))) us := by
  intro ps
  induction ps with
  | nil => intro k us h; cases h; exact List.Forall₂.nil
  | cons p ps ih =>
    intro k us h
    unfold asked at h
    obtain ⟨a, b, h1, h2, rfl⟩ := forall2_split h
    rw [List.flatMap_cons]
    refine List.rel_append ?_ (ih (k + 1) b h2)
    rw [List.forall₂_map_left_iff] at h1 ⊢
    refine h1.imp ?_
    rintro n u ⟨b1, b2⟩
    refine ⟨?_, b2⟩
    rcases b1 with ⟨b1, _⟩ | ⟨t, b1, b3⟩
    · cases b1
    · injection b1 with b1; rw [b1]; exact b3

theorem merged_nonempty (x0 : ℚ) : ∀ (rest : List (Task V U × Source V)) (a : List ℚ), rest.length < a.length →
    (∀ p ∈ rest, rest.length < (Axis0 p.2).length) → (rest.foldl (fun a p => mergeAxes adm a (Axis0 p.2)) a) ≠ [] := by
  intro rest
  induction rest with
  | nil => intro a h _ e; simp only [List.foldl_nil] at e; rw [e] at h; simp at h
  | cons p ps ih =>
    intro a h hp
    rw [List.foldl_cons]
    have h1 := hp p List.mem_cons_self
    have h2 := merge_length adm a (Axis0 p.2)
    simp only [List.length_cons] at h h1
    refine ih _ (by omega) ?_
    intro q hq
    have := hp q (List.mem_cons_of_mem _ hq)
    simp only [List.length_cons] at this
    omega

/-- Aligned imports keep the kind of the file. -/
theorem session_kind {g : ℚ} {w0 w : File V} {reqs : List (Request V)} (h : Session g w0 reqs w) (h0 : ∃ a, w0.axis = some a) :
    w.complex = w0.complex ∧ w.axisName = w0.axisName ∧ w.axisType = w0.axisType ∧ w.axis = w0.axis := by
  have keep : ∀ (names : List Str) (tag : Option Str) (o : Source V) (a b : File V), each (pend tag o) names a = .ok b →
      b.complex = a.complex ∧ b.axisName = a.axisName ∧ b.axisType = a.axisType ∧ b.axis = a.axis := by
    intro names tag o
    induction names with
    | nil => intro a b h; injection h with h; rw [h]; exact ⟨rfl, rfl, rfl, rfl⟩
    | cons n ns ih =>
      intro a b h
      unfold each at h
      cases hp : pend tag o a n with
      | error e => rw [hp] at h; cases h
      | ok a' =>
        rw [hp] at h
        obtain ⟨k1, k2, k3, k4⟩ := ih a' b h
        unfold pend at hp
        cases ht : o.trace n with
        | error e => rw [ht] at hp; cases hp
        | ok d =>
          rw [ht] at hp
          injection hp with hp
          rw [k1, k2, k3, k4, ← hp]
          exact ⟨rfl, rfl, rfl, rfl⟩
  induction h with
  | start _ _ => exact ⟨rfl, rfl, rfl, rfl⟩
  | @more reqs w w' o names tag hs ha hne ih =>
    obtain ⟨axis, h0⟩ := h0
    unfold addTraces at ha
    rw [ih.2.2.2, h0] at ha
    dsimp only at ha
    split_ifs at ha with c1 c2 c3
    · injection ha with ha; rw [← ha]; exact ih
    · unfold importAligned at ha
      obtain ⟨k1, k2, k3, k4⟩ := keep names tag o _ w' ha
      exact ⟨k1.trans ih.1, k2.trans ih.2.1, k3.trans ih.2.2.1, k4.trans ih.2.2.2⟩
    · rename_i c4; exact absurd rfl c4

theorem compose {first : Task V U × Source V} {new : List ℚ} {save : List Str} {us vs : List (Wave V)} (h1 : List.Forall₂ (Same first) save us)
    (h2 : List.Forall₂ (fun (t u : Wave V) => u.name = t.name ∧ List.Forall₂ (OnCurve (Axis0 first.2) t.data) new u.data) us vs) :
    List.Forall₂ (Shows new first) save vs := by
  induction h1 generalizing vs with
  | nil => cases h2; exact List.Forall₂.nil
  | cons a b ih =>
    cases h2 with
    | cons c d =>
      obtain ⟨a1, dd, a2, a3⟩ := a
      refine List.Forall₂.cons ⟨by rw [c.1]; exact a1, dd, a2, by rw [← a3]; exact c.2⟩ (ih d)

/-- What `create_raw_file_with` does when the runs can be put in one file. -/
theorem created [DecidableEq U] {conds : Model.Updates.Conditions U (Task V U)} {tasks later : List (Task V U)} {save : List Str} {x0 : ℚ}
    {first : Task V U × Source V} {rest : List (Task V U × Source V)} (hc : chosen conds tasks = first.1 :: later)
    (hl : later.filter (fun t => t.raw.isSome) = rest.map Prod.fst) (ht : Together x0 save first rest) (hs : save ≠ []) (hnd : save.Nodup) :
    ∃ (f : File V) (old more : List (Wave V)), create save conds tasks = .ok (later.all (fun t => t.raw.isSome), some f) ∧
      f.axis = some (mergedAxis first rest) ∧ f.traces = old ++ more ∧ f.axisName = first.2.axisName ∧ f.axisType = first.2.axisType ∧ f.complex = first.2.complex ∧
      Rising (mergedAxis first rest) ∧ (mergedAxis first rest).head? = some x0 ∧
      ((mergedAxis first rest).length ≠ (Axis0 first.2).length → List.Forall₂ (Shows (mergedAxis first rest) first) save old) ∧
      ((mergedAxis first rest).length = (Axis0 first.2).length → List.Forall₂ (Same first) save old) ∧
      List.Forall₂ (fun (q : (Task V U × Source V) × Str) u => Shows (mergedAxis first rest) q.1 q.2 u)
        (rest.flatMap (fun p => save.map (fun n => (p, n)))) more := by
  obtain ⟨t0, o0⟩ := first
  have h0 : t0.raw = some (.ok o0) := ht.opened (t0, o0) List.mem_cons_self
  have m0 : Mergeable adm x0 o0 := ht.axes (t0, o0) List.mem_cons_self
  have hr0 : Rising (Axis0 o0) := spaced_rising adm_pos m0.spaced
  obtain ⟨us, e1, e2⟩ := C81_first_import (V := V) ⟨true, adm, 0, some (Model.PyStr.showNat t0.runno)⟩ { o0 with id := 0 } save blank rfl
    (ht.traces (t0, o0) List.mem_cons_self)
  have hsame : List.Forall₂ (Same (t0, o0)) save us := by
    refine e2.imp ?_
    rintro n u ⟨b1, b2⟩
    refine ⟨?_, b2⟩
    rcases b1 with ⟨b1, _⟩ | ⟨t, b1, b3⟩
    · cases b1
    · injection b1 with b1; rw [b1]; exact b3
  generalize hw0 : ({ (blank : File V) with complex := o0.complex, axisName := o0.axisName, axisType := o0.axisType, axis := some (Axis0 o0), traces := us } : File V) = w0
  have e1' : addTraces ⟨true, adm, 0, some (Model.PyStr.showNat t0.runno)⟩ { o0 with id := 0 } save blank = .ok w0 := by
    rw [← hw0]; exact e1
  have g0 : w0.axis = some (Axis0 o0) := by rw [← hw0]
  have gt : w0.traces = us := by rw [← hw0]
  have hse : Session adm w0 [] w0 := Session.start (by rw [← hw0]; rfl) (by rw [← hw0]; rfl)
  have hcur : current w0 (Axis0 o0) = Axis0 o0 := by unfold current; rw [← hw0]; rfl
  obtain ⟨w, a1, a2, a3⟩ := runs_session (U := U) hs (w0 := w0) (axis := Axis0 o0) rest 1 [] w0 true hse g0
    (fun p hp => ht.opened p (List.mem_cons_of_mem _ hp))
    (fun p hp => ⟨by rw [← hw0]; exact (ht.kind p hp).1.symm, by rw [← hw0]; exact (ht.kind p hp).2.symm, ht.traces p (List.mem_cons_of_mem _ hp)⟩)
    (by rw [hcur]; exact ht.points (t0, o0) List.mem_cons_self) (fun p hp => ht.points p (List.mem_cons_of_mem _ hp))
  rw [List.nil_append] at a2
  rw [hcur] at a3
  have hM : (mergedAxis (t0, o0) rest) = current w (Axis0 o0) := a3.symm
  have hcreate : ∀ f, saved w = .ok f → create save conds tasks = .ok (later.all (fun t => t.raw.isSome), some f) := by
    intro f hf
    unfold create
    rw [hc]; dsimp only
    rw [h0]; dsimp only
    unfold collect
    rw [(runs_cons_ok h0).2 w0 e1', runs_skip, hl, a1]
    dsimp only [mapFlag]
    rw [hf]
    simp
  have inv := session_inv adm_pos g0 hr0 m0.start a2
    (asked_source save (Mergeable adm x0) (fun o k h => ⟨h.start, h.spaced, h.full⟩) rest 1 (fun p hp => ht.axes p (List.mem_cons_of_mem _ hp)))
    (asked_nodup save hnd rest 1)
  cases rest with
  | nil =>
    have hp : w.pending = [] := by
      have := inv.waits
      unfold asked at this
      cases hq : w.pending with
      | nil => rfl
      | cons a b => rw [hq] at this; cases this
    have hww : w = w0 := by
      simp only [List.map_nil, addRuns, Except.ok.injEq, Prod.mk.injEq, and_true] at a1
      exact a1.symm
    refine ⟨w, us, [], hcreate w (by unfold saved; rw [if_pos hp]), ?_, ?_, ?_, ?_, ?_, ?_, ?_, ?_, ?_, List.Forall₂.nil⟩
    · exact inv.base
    · rw [inv.traces, gt, List.append_nil]
    · rw [hww, ← hw0]
    · rw [hww, ← hw0]
    · rw [hww, ← hw0]
    · exact hr0
    · exact m0.start
    · intro h; exact absurd rfl h
    · intro _; exact hsame
  | cons p ps =>
    have hne : mergedAxis (t0, o0) (p :: ps) ≠ [] := merged_nonempty x0 (p :: ps) (Axis0 o0) (ht.points (t0, o0) List.mem_cons_self)
      (fun q hq => ht.points q (List.mem_cons_of_mem _ hq))
    have hasked : asked save 1 (p :: ps) ≠ [] := by
      unfold asked
      cases save with
      | nil => exact absurd rfl hs
      | cons n ns => simp
    rcases inv.merged with ⟨i1, _⟩ | ⟨i1, i2, i3, i4⟩
    · exact absurd i1 hasked
    · have hnew : w.newAxis ≠ [] := by intro e; rw [e] at i2; cases i2
      have hcurw : current w (Axis0 o0) = w.newAxis := by unfold current; rw [if_neg hnew]
      rw [hcurw] at hM
      have hpend : w.pending ≠ [] := by
        intro e
        have := inv.waits
        rw [e] at this
        cases hq : asked save 1 (p :: ps) with
        | nil => exact hasked hq
        | cons a b => rw [hq] at this; cases this
      obtain ⟨vs, f1, f2⟩ := bring_ok (new := w.newAxis) inv.waits (by
        intro r hr' d hd
        have mo := asked_source save (Mergeable adm x0) (fun o k h => ⟨h.start, h.spaced, h.full⟩) (p :: ps) 1 (fun p hp => ht.axes p (List.mem_cons_of_mem _ hp)) r hr'
        exact inside_curve mo.start (mo.full r.name d hd) i2 i1 (fun p hp z hz => i4 p hp r hr' z hz))
      have hmore := asked_shows (p :: ps) 1 vs f2
      rw [hM]
      have hkept : w.complex = o0.complex ∧ w.axisName = o0.axisName ∧ w.axisType = o0.axisType := by
        have := session_kind a2 ⟨_, g0⟩
        rw [this.1, this.2.1, this.2.2.1, ← hw0]
        exact ⟨rfl, rfl, rfl⟩
      have hsv : ∀ f, consolidate w = .ok f → saved w = .ok f := by
        intro f hf
        unfold saved
        rw [if_neg hpend, hf]
      by_cases hlen : w.newAxis.length = (Axis0 o0).length
      · have hf : consolidate w = .ok { w with axis := some w.newAxis, traces := us ++ vs, newAxis := [], pending := [] } := by
          unfold consolidate
          rw [inv.base]; dsimp only
          rw [if_neg (by rintro (h | h); exacts [hnew h, hpend h]), if_neg (by simpa using hlen)]
          dsimp only
          rw [f1, inv.traces, gt]
        refine ⟨_, us, vs, hcreate _ (hsv _ hf), rfl, rfl, hkept.2.1, hkept.2.2, hkept.1, i1, i2, ?_, ?_, hmore⟩
        · intro h; exact absurd hlen h
        · intro _; exact hsame
      · obtain ⟨us', g1, g2⟩ := redo_ok (axis := Axis0 o0) (new := w.newAxis) w.traces (by
          intro t htt
          rw [inv.traces, gt] at htt
          obtain ⟨n, hn, _, d, hd, hdd⟩ := forall₂_right hsame t htt
          refine inside_curve m0.start ?_ i2 i1 i3
          rw [hdd]; exact m0.full n d hd)
        have hf : consolidate w = .ok { w with axis := some w.newAxis, traces := us' ++ vs, newAxis := [], pending := [] } := by
          unfold consolidate
          rw [inv.base]; dsimp only
          rw [if_neg (by rintro (h | h); exacts [hnew h, hpend h]), if_pos hlen, g1]
          dsimp only
          rw [f1]
        refine ⟨_, us', vs, hcreate _ (hsv _ hf), rfl, rfl, hkept.2.1, hkept.2.2, hkept.1, i1, i2, ?_, ?_, hmore⟩
        · intro _
          rw [inv.traces, gt] at g2
          exact compose hsame g2
        · intro h; exact absurd h hlen

/-- C94: the traces of all successful runs that match, in one file: on a common axis every trace of a later run is on the curve of that
run and is named after it, the same for the first run (whose samples are copied when the common axis has as many points as its own), and
the value returned tells whether every run had a RAW file. -/
theorem C94_saved [DecidableEq U] (conds : Model.Updates.Conditions U (Task V U)) (tasks later : List (Task V U)) (save : List Str) (x0 : ℚ)
    (first : Task V U × Source V) (rest : List (Task V U × Source V)) (hc : chosen conds tasks = first.1 :: later)
    (hl : later.filter (fun t => t.raw.isSome) = rest.map Prod.fst) (ht : Together x0 save first rest) (hs : save ≠ []) (hnd : save.Nodup) :
    ∃ (f : File V) (new : List ℚ) (old more : List (Wave V)), create save conds tasks = .ok (later.all (fun t => t.raw.isSome), some f) ∧
      f.axis = some new ∧ f.traces = old ++ more ∧ f.axisName = first.2.axisName ∧ f.axisType = first.2.axisType ∧ f.complex = first.2.complex ∧
      Rising new ∧ new.head? = some x0 ∧
      (new.length ≠ (Axis0 first.2).length → List.Forall₂ (Shows new first) save old) ∧
      (new.length = (Axis0 first.2).length → List.Forall₂ (Same first) save old) ∧
      List.Forall₂ (fun (q : (Task V U × Source V) × Str) u => Shows new q.1 q.2 u) (rest.flatMap (fun p => save.map (fun n => (p, n)))) more := by
  obtain ⟨f, old, more, h⟩ := created hc hl ht hs hnd
  exact ⟨f, _, old, more, h⟩

/-- C94: a single run is copied. -/
theorem C94_one_run [DecidableEq U] (conds : Model.Updates.Conditions U (Task V U)) (tasks later : List (Task V U)) (save : List Str) (x0 : ℚ)
    (first : Task V U × Source V) (hc : chosen conds tasks = first.1 :: later) (hl : ∀ t ∈ later, t.raw = none)
    (ht : Together x0 save first []) (hs : save ≠ []) (hnd : save.Nodup) :
    ∃ f : File V, create save conds tasks = .ok (later.isEmpty, some f) ∧ f.axis = some (Axis0 first.2) ∧ List.Forall₂ (Same first) save f.traces := by
  have hl' : later.filter (fun t => t.raw.isSome) = ([] : List (Task V U × Source V)).map Prod.fst := by
    rw [List.map_nil, List.filter_eq_nil_iff]
    intro t h; rw [hl t h]; simp
  obtain ⟨f, old, more, h1, h2, h3, _, _, _, _, _, _, h8, h9⟩ := created hc hl' ht hs hnd
  refine ⟨f, ?_, h2, ?_⟩
  · rw [h1]
    congr 2
    cases later with
    | nil => rfl
    | cons t ts => simp [hl t List.mem_cons_self]
  · have h8 := h8 rfl
    rw [List.flatMap_nil] at h9
    cases h9
    rw [h3, List.append_nil]
    exact h8

theorem fold_same (xs : List ℚ) : ∀ (rest : List (Task V U × Source V)) (k : Nat), k ≤ xs.length → (∀ p ∈ rest, Axis0 p.2 = xs) →
    rest.foldl (fun a p => mergeAxes adm a (Axis0 p.2)) (xs.take k) = xs.take (k - rest.length) := by
  intro rest
  induction rest with
  | nil => intro k _ _; simp
  | cons p ps ih =>
    intro k hk h
    rw [List.foldl_cons, h p List.mem_cons_self]
    have : mergeAxes adm (xs.take k) xs = xs.take (k - 1) := by
      unfold mergeAxes
      rw [merge_same adm adm_pos xs k _ (le_refl _)]
      congr 1
      omega
    rw [this, ih (k - 1) (by omega) (fun q hq => h q (List.mem_cons_of_mem _ hq))]
    congr 1
    simp only [List.length_cons]; omega

/-- A curve through its own points. -/
theorem at_points {xs : List ℚ} (hx : Rising xs) {ys : List V} (hl : ys.length = xs.length) (m : Nat) (hm : m < xs.length) {vs : List V}
    (h : List.Forall₂ (OnCurve xs ys) (xs.take m) vs) : vs = ys.take m := by
  have hlen := h.length_eq
  rw [List.length_take] at hlen
  apply List.ext_getElem?
  intro i
  by_cases hi : i < m
  · have h1 : i < xs.length := by omega
    have h2 : i < vs.length := by omega
    have h3 : i < ys.length := by omega
    have h4 : i + 1 < xs.length := by omega
    have h5 : i + 1 < ys.length := by omega
    have hc : OnCurve xs ys (xs[i]) (vs[i]) := by
      have := (List.forall₂_iff_get.mp h).2 i (by rw [List.length_take]; omega) h2
      simpa using this
    have hk : OnCurve xs ys (xs[i]) (ys[i]) := by
      refine ⟨i, xs[i], xs[i + 1], ys[i], ys[i + 1], List.getElem?_eq_getElem h1, List.getElem?_eq_getElem h4, List.getElem?_eq_getElem h3,
        List.getElem?_eq_getElem h5, le_refl _, le_of_lt (List.pairwise_iff_getElem.mp hx i (i + 1) h1 h4 (by omega)), ?_⟩
      simp
    rw [List.getElem?_eq_getElem h2, List.getElem?_take_of_lt hi, List.getElem?_eq_getElem h3, C81_curve_unique ys xs _ _ _ hx hc hk]
  · rw [List.getElem?_eq_none (by omega), List.getElem?_eq_none (by rw [List.length_take]; omega)]

theorem forall2_imp_mem {α β : Type} {R S : α → β → Prop} {as : List α} {bs : List β} (h : List.Forall₂ R as bs)
    (hi : ∀ a b, a ∈ as → R a b → S a b) : List.Forall₂ S as bs := by
  induction h with
  | nil => exact List.Forall₂.nil
  | cons h1 _ ih => exact List.Forall₂.cons (hi _ _ List.mem_cons_self h1) (ih (fun a b ha => hi a b (List.mem_cons_of_mem _ ha)))

/-- C94: runs with the same axis: the samples of every trace are those of its run, except that the last points are missing, as many as
there are further runs. -/
theorem C94_equal_axes [DecidableEq U] (conds : Model.Updates.Conditions U (Task V U)) (tasks later : List (Task V U)) (save : List Str) (x0 : ℚ)
    (first : Task V U × Source V) (rest : List (Task V U × Source V)) (xs : List ℚ) (hc : chosen conds tasks = first.1 :: later)
    (hl : later.filter (fun t => t.raw.isSome) = rest.map Prod.fst) (ht : Together x0 save first rest) (hs : save ≠ []) (hnd : save.Nodup)
    (hx : ∀ p ∈ first :: rest, Axis0 p.2 = xs) :
    ∃ f : File V, create save conds tasks = .ok (later.all (fun t => t.raw.isSome), some f) ∧ f.axis = some (xs.take (xs.length - rest.length)) ∧
      List.Forall₂ (fun (q : (Task V U × Source V) × Str) u => Tagged (Model.PyStr.showNat q.1.1.runno) q.2 u.name ∧
          ∃ d, q.1.2.traces.lookup q.2 = some d ∧ u.data = (d.getD 0 []).take (xs.length - rest.length))
        ((first :: rest).flatMap (fun p => save.map (fun n => (p, n)))) f.traces := by
  obtain ⟨f, old, more, h1, h2, h3, _, _, _, _, _, h7, h8, h9⟩ := created hc hl ht hs hnd
  have hx0 := hx first List.mem_cons_self
  have hM : mergedAxis first rest = xs.take (xs.length - rest.length) := by
    unfold mergedAxis
    rw [hx0]
    conv_lhs => rw [← List.take_length (l := xs)]
    exact fold_same xs rest xs.length (le_refl _) (fun p hp => hx p (List.mem_cons_of_mem _ hp))
  rw [hM] at h2 h7 h8 h9
  have hpts := ht.points first List.mem_cons_self
  rw [hx0] at hpts
  have hr : Rising xs := by rw [← hx0]; exact spaced_rising adm_pos (ht.axes first List.mem_cons_self).spaced
  have conv : ∀ (p : Task V U × Source V) (n : Str) (u : Wave V), p ∈ first :: rest → rest ≠ [] → Shows (xs.take (xs.length - rest.length)) p n u →
      Tagged (Model.PyStr.showNat p.1.runno) n u.name ∧ ∃ d, p.2.traces.lookup n = some d ∧ u.data = (d.getD 0 []).take (xs.length - rest.length) := by
    rintro p n u hp hne ⟨g1, d, g2, g3⟩
    refine ⟨g1, d, g2, ?_⟩
    rw [hx p hp] at g3
    have hfull := (ht.axes p hp).full n d g2
    rw [hx p hp] at hfull
    exact at_points hr hfull _ (by have := List.length_pos_iff.mpr hne; omega) g3
  refine ⟨f, h1, h2, ?_⟩
  rw [h3, List.flatMap_cons]
  refine List.rel_append ?_ ?_
  · rw [List.forall₂_map_left_iff]
    by_cases hne : rest = []
    · have hlen : (xs.take (xs.length - rest.length)).length = (Axis0 first.2).length := by rw [hx0, hne]; simp
      refine forall2_imp_mem (h8 hlen) ?_
      rintro n u _ ⟨g1, d, g2, g3⟩
      refine ⟨g1, d, g2, ?_⟩
      have hfull := (ht.axes first List.mem_cons_self).full n d g2
      rw [hx0] at hfull
      rw [g3, hne]
      simp [← hfull]
    · have hlen : (xs.take (xs.length - rest.length)).length ≠ (Axis0 first.2).length := by
        have := List.length_pos_iff.mpr hne
        rw [hx0, List.length_take]; omega
      exact forall2_imp_mem (h7 hlen) (fun n u _ h => conv first n u List.mem_cons_self hne h)
  · refine forall2_imp_mem h9 ?_
    intro q u hq h
    obtain ⟨p, hp, hn⟩ := List.mem_flatMap.mp hq
    obtain ⟨n, _, rfl⟩ := List.mem_map.mp hn
    exact conv p n u (List.mem_cons_of_mem _ hp) (by rintro rfl; cases hp) h

/-- C94: no run matches, or the first one has no RAW file: nothing is written. -/
theorem C94_nothing [DecidableEq U] (conds : Model.Updates.Conditions U (Task V U)) (tasks : List (Task V U)) (save : List Str) :
    ((∀ t ∈ tasks, t.retcode = 0 → Model.Updates.matchConditions conds t t.edits = false) → create save conds tasks = .error .stop) ∧
    (∀ t later, chosen conds tasks = t :: later → t.raw = none → create save conds tasks = .ok (false, none)) := by
  constructor
  · intro h
    have : chosen conds tasks = [] := by
      unfold chosen
      rw [List.filter_eq_nil_iff]
      intro t ht hh
      rw [Bool.and_eq_true, beq_iff_eq] at hh
      rw [h t ht hh.2] at hh
      exact Bool.noConfusion hh.1
    unfold create
    rw [this]
  · intro t later hc ht
    unfold create
    rw [hc]; dsimp only
    rw [ht]

theorem add_kind {opt : Model.RawMerge.Options} {o : Source V} {names : List Str} {w w' : File V} (ha : opt.align = true) (h0 : w.axis ≠ none)
    (h : addTraces opt o names w = .ok w') :
    w'.complex = w.complex ∧ w'.axisType = w.axisType ∧ w'.axis = w.axis ∧ o.complex = w.complex ∧ o.axisType = w.axisType := by
  have keep : ∀ (names : List Str) (tag : Option Str) (o : Source V) (a b : File V), each (pend tag o) names a = .ok b →
      b.complex = a.complex ∧ b.axisType = a.axisType ∧ b.axis = a.axis := by
    intro names tag o
    induction names with
    | nil => intro a b h; injection h with h; rw [h]; exact ⟨rfl, rfl, rfl⟩
    | cons n ns ih =>
      intro a b h
      unfold each at h
      cases hp : pend tag o a n with
      | error e => rw [hp] at h; cases h
      | ok a' =>
        rw [hp] at h
        obtain ⟨k1, k3, k4⟩ := ih a' b h
        unfold pend at hp
        cases ht : o.trace n with
        | error e => rw [ht] at hp; cases hp
        | ok d =>
          rw [ht] at hp
          injection hp with hp
          rw [k1, k3, k4, ← hp]
          exact ⟨rfl, rfl, rfl⟩
  cases hax : w.axis with
  | none => exact absurd hax h0
  | some axis =>
    unfold addTraces at h
    rw [hax, ha] at h
    dsimp only at h
    split_ifs at h with c1 c2 c3
    · injection h with h
      rw [← h]
      exact ⟨rfl, rfl, hax, (not_not.mp c1).symm, (not_not.mp c2).symm⟩
    · unfold importAligned at h
      obtain ⟨k1, k2, k3⟩ := keep names opt.tag o _ w' h
      exact ⟨k1, k2, k3.trans hax, (not_not.mp c1).symm, (not_not.mp c2).symm⟩
    · rename_i c4; exact absurd rfl c4

theorem runs_refused (save : List Str) (c : Bool) (aty : Str) : ∀ (ts : List (Task V U)) (k : Nat) (w : File V) (ok : Bool), w.axis ≠ none → w.complex = c → w.axisType = aty →
    (∃ t ∈ ts, ∃ o, t.raw = some (.ok o) ∧ (o.complex ≠ c ∨ o.axisType ≠ aty ∨ ∃ n ∈ save, o.traces.lookup n = none)) →
    ∃ e, addRuns save k ts w ok = .error e := by
  intro ts
  induction ts with
  | nil => rintro k w ok _ _ _ ⟨t, ht, _⟩; cases ht
  | cons t ts ih =>
    rintro k w ok h0 hc ht ⟨u, hu, o, ho, hbad⟩
    cases hr : t.raw with
    | none =>
      rw [runs_cons_none hr]
      rcases List.mem_cons.mp hu with rfl | hu
      · rw [hr] at ho; cases ho
      · exact ih k w false h0 hc ht ⟨u, hu, o, ho, hbad⟩
    | some x =>
      cases x with
      | error e => exact ⟨_, runs_cons_error hr⟩
      | ok o' =>
        cases ha : addTraces ⟨true, adm, 0, some (Model.PyStr.showNat t.runno)⟩ { o' with id := k } save w with
        | error e => exact ⟨_, (runs_cons_ok hr).1 e ha⟩
        | ok w' =>
          rw [(runs_cons_ok hr).2 w' ha]
          obtain ⟨k1, k2, k3, k4, k5⟩ := add_kind rfl h0 ha
          rcases List.mem_cons.mp hu with rfl | hu
          · exfalso
            rw [hr] at ho
            injection ho with ho
            injection ho with ho
            subst ho
            rcases hbad with hb | hb | hb
            · exact hb (k4.trans hc)
            · exact hb (k5.trans ht)
            · obtain ⟨axis, hax⟩ := Option.ne_none_iff_exists'.mp h0
              obtain ⟨e, he⟩ := (C81_refused (V := V) ⟨true, adm, 0, some (Model.PyStr.showNat u.runno)⟩ { o' with id := k } save w axis hax).2 hb
              rw [ha] at he; cases he
          · exact ih (k + 1) w' ok (by rw [k3]; exact h0) (k1.trans hc) (k2.trans ht) ⟨u, hu, o, ho, hbad⟩

/-- C94: runs of different kinds, or without one of the traces asked for, are refused and no file is written. -/
theorem C94_refused [DecidableEq U] (conds : Model.Updates.Conditions U (Task V U)) (tasks later : List (Task V U)) (save : List Str) (t0 : Task V U)
    (o0 : Source V) (hc : chosen conds tasks = t0 :: later) (h0 : t0.raw = some (.ok o0))
    (hbad : (∃ n ∈ save, o0.traces.lookup n = none) ∨ ∃ t ∈ later, ∃ o, t.raw = some (.ok o) ∧
      (o.complex ≠ o0.complex ∨ o.axisType ≠ o0.axisType ∨ ∃ n ∈ save, o.traces.lookup n = none)) :
    ∃ e, create save conds tasks = .error e := by
  have main : ∃ e, addRuns save 0 (t0 :: later) blank true = .error e := by
    by_cases hn : ∀ n ∈ save, ∃ d, o0.traces.lookup n = some d
    · rcases hbad with ⟨n, h1, h2⟩ | hbad
      · obtain ⟨d, hd⟩ := hn n h1
        rw [h2] at hd; cases hd
      · obtain ⟨us, e1, _⟩ := C81_first_import (V := V) ⟨true, adm, 0, some (Model.PyStr.showNat t0.runno)⟩ { o0 with id := 0 } save blank rfl hn
        rw [(runs_cons_ok h0).2 _ e1]
        exact runs_refused save o0.complex o0.axisType later 1 _ true (by simp) rfl rfl hbad
    · push Not at hn
      obtain ⟨n, h1, h2⟩ := hn
      have h2 : o0.traces.lookup n = none := by
        cases hh : o0.traces.lookup n with
        | none => rfl
        | some d => exact absurd hh (h2 d)
      have : ∃ e, addTraces ⟨true, adm, 0, some (Model.PyStr.showNat t0.runno)⟩ { o0 with id := 0 } save (blank : File V) = .error e := by
        unfold addTraces Model.RawMerge.importPlain blank
        dsimp only
        rw [if_pos rfl]
        exact each_missing _ n .index (fun w => by unfold Model.RawMerge.copyIn Source.trace; rw [h2]) save _ h1
      obtain ⟨e, he⟩ := this
      exact ⟨_, (runs_cons_ok h0).1 e he⟩
  obtain ⟨e, he⟩ := main
  refine ⟨e, ?_⟩
  unfold create
  rw [hc]; dsimp only
  rw [h0]; dsimp only
  unfold collect
  rw [he]

/-! ### Samples and limits -/

/-- The source of a run with one trace. -/
def src (axis data : List ℚ) : Source ℚ := ⟨0, false, "time".toList, "time".toList, [axis], [("V(b)".toList, [data])]⟩

def task (no : Nat) (code : Int) (raw : Option (Source ℚ)) : Task ℚ Nat := ⟨no, code, none, raw.map .ok⟩

/-- What is returned, the axis and the traces. -/
def outcome (ts : List (Task ℚ Nat)) : Option (Bool × Option (Option (List ℚ) × List (Wave ℚ))) :=
  match create ["V(b)".toList] .noFilter ts with
  | .error _ => none
  | .ok (b, f) => some (b, f.map (fun f => (f.axis, f.traces)))

/-- C94 sample: three runs, of which one failed and one has no RAW file. -/
theorem C94_sample : outcome [task 1 0 (some (src [0, 1, 2, 4] [0, 10, 20, 40])), task 2 1 none, task 3 0 none, task 4 0 (some (src [0, 3, 4, 5] [0, 6, 8, 10]))] =
      some (false, some (some [0, 1, 2], [⟨"V(b_1)".toList, [0, 10, 20]⟩, ⟨"V(b_4)".toList, [0, 2, 4]⟩])) ∧
    outcome [task 3 0 none, task 1 0 (some (src [0, 1] [0, 10]))] = some (false, none) ∧ outcome [task 2 1 none] = none := by
  refine ⟨?_, ?_, ?_⟩ <;> decide +kernel

/-- C94 sample: the hypotheses of `C94_saved` and `C94_equal_axes`. -/
theorem C94_applies : Together (U := Nat) 0 ["V(b)".toList] (task 1 0 (some (src [0, 1, 2] [0, 10, 20])), src [0, 1, 2] [0, 10, 20])
    [(task 2 0 (some (src [0, 1, 2] [0, 2, 4])), src [0, 1, 2] [0, 2, 4])] := by
  have hsp : Spaced adm [0, 1, 2] := by
    intro k x y hx hy
    match k with
    | 0 => cases hx; cases hy; unfold adm; norm_num
    | 1 => cases hx; cases hy; unfold adm; norm_num
    | k + 2 => cases hy
  have hm : ∀ a b c, Mergeable adm 0 (src [0, 1, 2] [a, b, c]) := by
    intro a b c
    refine ⟨rfl, hsp, ?_⟩
    intro n d h
    simp only [src, List.lookup] at h
    split at h
    · injection h with h; rw [← h]; rfl
    · cases h
  refine ⟨?_, ?_, ?_, ?_, ?_⟩
  · intro p hp
    simp only [List.mem_cons, List.not_mem_nil, or_false] at hp
    rcases hp with rfl | rfl <;> rfl
  · intro p hp
    simp only [List.mem_singleton] at hp
    subst hp; exact ⟨rfl, rfl⟩
  · intro p hp n hn
    simp only [List.mem_singleton] at hn
    subst hn
    simp only [List.mem_cons, List.not_mem_nil, or_false] at hp
    rcases hp with rfl | rfl <;> exact ⟨_, rfl⟩
  · intro p hp
    simp only [List.mem_cons, List.not_mem_nil, or_false] at hp
    rcases hp with rfl | rfl <;> exact hm _ _ _
  · intro p hp
    simp only [List.mem_cons, List.not_mem_nil, or_false] at hp
    rcases hp with rfl | rfl <;> decide

/-- Limits: every further run costs a point at the end, and with as many further runs as points the runs imported so far are dropped although the
value returned says that all of them are in the file. -/
theorem C94_limits : outcome [task 1 0 (some (src [0, 1, 2] [0, 10, 20])), task 2 0 (some (src [0, 1, 2] [0, 2, 4])), task 3 0 (some (src [0, 1, 2] [5, 6, 7]))] =
      some (true, some (some [0], [⟨"V(b_1)".toList, [0]⟩, ⟨"V(b_2)".toList, [0]⟩, ⟨"V(b_3)".toList, [5]⟩])) ∧
    outcome [task 1 0 (some (src [0, 1] [0, 10])), task 2 0 (some (src [0, 1] [0, 2])), task 3 0 (some (src [0, 1] [5, 6]))] =
      some (true, some (some [0, 1], [⟨"V(b_1)".toList, [0, 10]⟩])) := by
  refine ⟨?_, ?_⟩ <;> decide +kernel

end Props.RunFile
