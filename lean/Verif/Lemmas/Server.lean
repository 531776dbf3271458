import Verif.Model.Server
import Verif.Spec.ServerHistory
import Mathlib.Data.List.Nodup
import Mathlib.Tactic.Tauto
/-
The invariant of the simulation server.
-/
namespace Lemmas.Server
open Model.Server Spec.ServerHistory

/-! ### The history grows at its end -/

theorem opened_snoc {h : History} {x : Act × Out} {s : Nat} : Opened (h ++ [x]) s ↔ Opened h s ∨ x = (.start, .session s) := by
  unfold Opened; simp [eq_comm]
theorem closed_snoc {h : History} {x : Act × Out} {s : Nat} : Closed (h ++ [x]) s ↔ Closed h s ∨ x = (.close s, .bool true) := by
  unfold Closed; simp [eq_comm]
theorem startedBy_snoc {h : History} {x : Act × Out} {s : Nat} : startedBy (h ++ [x]) s = startedBy h s ++ startedBy [x] s := by
  unfold startedBy; rw [List.filterMap_append]
theorem ended_snoc {h : History} {x : Act × Out} : ended (h ++ [x]) = ended h ++ ended [x] := by
  unfold ended; rw [List.filterMap_append]
theorem fetched_snoc {h : History} {x : Act × Out} : fetched (h ++ [x]) = fetched h ++ fetched [x] := by
  unfold fetched; rw [List.filterMap_append]

/-! ### Dictionaries and completed_tasks -/

theorem lookup_none {s : Nat} {l : List (Nat × List Nat)} : lookup s l = none ↔ s ∉ l.map Prod.fst := by
  induction l with
  | nil => simp [lookup]
  | cons e l ih =>
    obtain ⟨k, v⟩ := e
    unfold lookup
    by_cases h : k = s
    · simp [h]
    · rw [if_neg h, ih]; simp [Ne.symm h]

theorem lookup_append_new {s t : Nat} {l : List (Nat × List Nat)} (hs : s ∉ l.map Prod.fst) :
    lookup t (l ++ [(s, [])]) = if t = s then some [] else lookup t l := by
  induction l with
  | nil => simp [lookup, eq_comm]
  | cons e l ih =>
    obtain ⟨k, v⟩ := e
    simp only [List.map_cons, List.mem_cons, not_or] at hs
    simp only [List.cons_append, lookup]
    by_cases h : k = t
    · have : t ≠ s := by rw [← h]; exact Ne.symm hs.1
      simp [h, this]
    · simp [h, ih hs.2]

theorem push_fst (s r : Nat) (l : List (Nat × List Nat)) : (push s r l).map Prod.fst = l.map Prod.fst := by
  induction l with
  | nil => rfl
  | cons e l ih =>
    obtain ⟨k, v⟩ := e
    unfold push
    by_cases h : k = s
    · simp [h]
    · simp [h, ih]

theorem lookup_push (s r t : Nat) (l : List (Nat × List Nat)) :
    lookup t (push s r l) = if t = s then (lookup t l).map (· ++ [r]) else lookup t l := by
  induction l with
  | nil => simp [push, lookup]
  | cons e l ih =>
    obtain ⟨k, v⟩ := e
    unfold push
    by_cases h : k = s
    · subst h
      by_cases ht : t = k
      · subst ht; simp [lookup]
      · simp [lookup, ht, Ne.symm ht]
    · rw [if_neg h]
      by_cases hk : k = t
      · subst hk; simp [lookup, h]
      · simp [lookup, hk, ih]

theorem lookup_filter (s t : Nat) (l : List (Nat × List Nat)) :
    lookup t (l.filter (fun e => e.1 ≠ s)) = if t = s then none else lookup t l := by
  induction l with
  | nil => simp [lookup]
  | cons e l ih =>
    obtain ⟨k, v⟩ := e
    by_cases h : k = s
    · subst h
      rw [List.filter_cons_of_neg (by simp), ih]
      by_cases ht : t = k
      · simp [ht]
      · simp [ht, lookup, Ne.symm ht]
    · rw [List.filter_cons_of_pos (by simpa using h)]
      simp only [lookup]
      by_cases hk : k = t
      · subst hk; simp [h]
      · rw [if_neg hk, if_neg hk]; exact ih

theorem erase_eq {r : Nat} {c : List (Nat × Option Nat)} (h : (c.map Prod.fst).Nodup) : erase r c = c.filter (fun e => e.1 ≠ r) := by
  induction c with
  | nil => rfl
  | cons e c ih =>
    simp only [List.map_cons, List.nodup_cons] at h
    unfold erase
    by_cases he : e.1 = r
    · rw [if_pos he, List.filter_cons_of_neg (by simpa using he)]
      symm; rw [List.filter_eq_self]
      intro x hx
      have : x.1 ≠ e.1 := fun e' => h.1 (e' ▸ List.mem_map_of_mem hx)
      simpa [← he] using this
    · rw [if_neg he, List.filter_cons_of_pos (by simpa using he), ih h.2]

theorem nodup_filter {c : List (Nat × Option Nat)} (p : Nat × Option Nat → Bool) (h : (c.map Prod.fst).Nodup) :
    ((c.filter p).map Prod.fst).Nodup := h.sublist ((List.filter_sublist).map _)

theorem eraseAll_eq (l : List Nat) {c : List (Nat × Option Nat)} (h : (c.map Prod.fst).Nodup) :
    l.foldl (fun c r => erase r c) c = c.filter (fun e => !l.contains e.1) := by
  induction l generalizing c with
  | nil => simp
  | cons r l ih =>
    rw [List.foldl_cons, erase_eq h, ih (nodup_filter _ h), List.filter_filter]
    apply List.filter_congr
    intro e _
    by_cases he : e.1 = r <;> simp [he]

theorem fetch_some {r d : Nat} {c : List (Nat × Option Nat)} (h : (c.map Prod.fst).Nodup) : fetch r c = some d ↔ (r, some d) ∈ c := by
  induction c with
  | nil => simp [fetch]
  | cons e c ih =>
    obtain ⟨k, z⟩ := e
    simp only [List.map_cons, List.nodup_cons] at h
    unfold fetch
    by_cases hk : k = r
    · subst hk
      have hno : ∀ x : Option Nat, (k, x) ∉ c := fun x hx => h.1 (List.mem_map_of_mem (f := Prod.fst) hx)
      cases z with
      | some d' => simp [hno]; exact eq_comm
      | none => simp [ih h.2, hno]
    · simp [hk, ih h.2, Ne.symm hk]

/-! ### The invariant -/

structure Inv (st : St) (h : History) : Prop where
  keys : (st.sessions.map Prod.fst).Nodup
  keyslt : ∀ k ∈ st.sessions.map Prod.fst, k < st.nextSession
  openLook : ∀ s, IsOpen h s → lookup s st.sessions = some (startedBy h s)
  noLook : ∀ s, ¬ IsOpen h s → lookup s st.sessions = none
  opened : ∀ s, Opened h s ↔ s < st.nextSession
  closedlt : ∀ s, Closed h s → s < st.nextSession
  startle : ∀ s, ∀ r ∈ startedBy h s, r ≤ st.runno
  disj : ∀ s s' r, r ∈ startedBy h s → r ∈ startedBy h s' → s = s'
  snodup : ∀ s, (startedBy h s).Nodup
  snone : ∀ s, st.nextSession ≤ s → startedBy h s = []
  anodup : st.active.Nodup
  active : ∀ r ∈ st.active, r ≤ st.runno ∧ r ∉ (ended h).map Prod.fst
  runs : ∀ s, ∀ r ∈ startedBy h s, r ∈ st.active ∨ r ∈ (ended h).map Prod.fst
  endle : ∀ r ∈ (ended h).map Prod.fst, r ≤ st.runno
  enodup : ((ended h).map Prod.fst).Nodup
  sub : st.completed.Sublist (ended h)
  fend : ∀ r ∈ fetched h, r ∈ (ended h).map Prod.fst
  fgone : ∀ r ∈ fetched h, r ∉ st.completed.map Prod.fst
  fnodup : (fetched h).Nodup
  view : ∀ s, ¬ Closed h s → ∀ e ∈ ended h, e.1 ∈ startedBy h s → e.1 ∉ fetched h → e ∈ st.completed

theorem Inv.cnodup {st : St} {h : History} (i : Inv st h) : (st.completed.map Prod.fst).Nodup := i.enodup.sublist (i.sub.map _)

/-- An answer that tells nothing and changes nothing. -/
theorem Inv.quiet {st : St} {h : History} {x : Act × Out} (i : Inv st h) (h1 : ∀ s, x ≠ (.start, .session s))
    (h2 : ∀ s, x ≠ (.close s, .bool true)) (h3 : ∀ s, startedBy [x] s = []) (h4 : ended [x] = []) (h5 : fetched [x] = []) :
    Inv st (h ++ [x]) := by
  have o : ∀ s, Opened (h ++ [x]) s ↔ Opened h s := fun s => by rw [opened_snoc]; simp [h1 s]
  have c : ∀ s, Closed (h ++ [x]) s ↔ Closed h s := fun s => by rw [closed_snoc]; simp [h2 s]
  have oo : ∀ s, IsOpen (h ++ [x]) s ↔ IsOpen h s := fun s => by unfold IsOpen; rw [o, c]
  have sb : ∀ s, startedBy (h ++ [x]) s = startedBy h s := fun s => by rw [startedBy_snoc, h3, List.append_nil]
  have en : ended (h ++ [x]) = ended h := by rw [ended_snoc, h4, List.append_nil]
  have fe : fetched (h ++ [x]) = fetched h := by rw [fetched_snoc, h5, List.append_nil]
  constructor <;> try simp only [o, c, oo, sb, en, fe]
  exacts [i.keys, i.keyslt, i.openLook, i.noLook, i.opened, i.closedlt, i.startle, i.disj, i.snodup, i.snone, i.anodup, i.active,
    i.runs, i.endle, i.enodup, i.sub, i.fend, i.fgone, i.fnodup, i.view]

theorem inv_init : Inv init [] := by
  constructor <;> simp [init, lookup, Opened, Closed, IsOpen, startedBy, ended, fetched]

/-- The number handed out grows: nothing else is affected. -/
theorem Inv.bump {st : St} {h : History} (i : Inv st h) : Inv { st with runno := st.runno + 1 } h := by
  constructor
  exacts [i.keys, i.keyslt, i.openLook, i.noLook, i.opened, i.closedlt, fun s r hr => Nat.le_succ_of_le (i.startle s r hr), i.disj,
    i.snodup, i.snone, i.anodup, fun r hr => ⟨Nat.le_succ_of_le (i.active r hr).1, (i.active r hr).2⟩,
    i.runs, fun r hr => Nat.le_succ_of_le (i.endle r hr), i.enodup, i.sub, i.fend, i.fgone, i.fnodup, i.view]

theorem inv_start {st : St} {h : History} (i : Inv st h) :
    Inv (step st .start).1 (h ++ [(.start, (step st .start).2)]) := by
  simp only [step]
  have sb : ∀ s, startedBy (h ++ [(Act.start, Out.session st.nextSession)]) s = startedBy h s := fun s => by
    rw [startedBy_snoc]; simp [startedBy]
  have en : ended (h ++ [(Act.start, Out.session st.nextSession)]) = ended h := by rw [ended_snoc]; simp [ended]
  have fe : fetched (h ++ [(Act.start, Out.session st.nextSession)]) = fetched h := by rw [fetched_snoc]; simp [fetched]
  have c : ∀ s, Closed (h ++ [(Act.start, Out.session st.nextSession)]) s ↔ Closed h s := fun s => by rw [closed_snoc]; simp
  have o : ∀ s, Opened (h ++ [(Act.start, Out.session st.nextSession)]) s ↔ Opened h s ∨ s = st.nextSession := fun s => by
    rw [opened_snoc]; simp [eq_comm]
  have hnew : st.nextSession ∉ st.sessions.map Prod.fst := fun hk => Nat.lt_irrefl _ (i.keyslt _ hk)
  have hnc : ¬ Closed h st.nextSession := fun hc => Nat.lt_irrefl _ (i.closedlt _ hc)
  constructor
  · simp only [List.map_append, List.map_cons, List.map_nil]
    exact List.nodup_append.mpr ⟨i.keys, by simp, by intro a ha b hb e; simp at hb; exact hnew (by rw [← hb, ← e]; exact ha)⟩
  · intro k hk
    simp only [List.map_append, List.map_cons, List.map_nil, List.mem_append, List.mem_singleton] at hk
    show k < st.nextSession + 1
    rcases hk with hk | hk
    · exact Nat.lt_succ_of_lt (i.keyslt k hk)
    · omega
  · intro s hs
    obtain ⟨h1, h2⟩ := hs
    rw [o] at h1; rw [c] at h2
    rw [lookup_append_new hnew, sb]
    by_cases e : s = st.nextSession
    · rw [if_pos e, e, i.snone _ (Nat.le_refl _)]
    · rw [if_neg e]; exact i.openLook s ⟨h1.resolve_right e, h2⟩
  · intro s hs
    rw [lookup_append_new hnew]
    by_cases e : s = st.nextSession
    · subst e; exact absurd ⟨(o _).mpr (Or.inr rfl), fun hc => hnc ((c _).mp hc)⟩ hs
    · rw [if_neg e]
      apply i.noLook
      rintro ⟨h1, h2⟩
      exact hs ⟨(o _).mpr (Or.inl h1), fun hc => h2 ((c _).mp hc)⟩
  · intro s
    show _ ↔ s < st.nextSession + 1
    rw [o, i.opened]; omega
  · intro s hs
    exact Nat.lt_succ_of_lt (i.closedlt s ((c s).mp hs))
  · simp only [sb]; exact i.startle
  · simp only [sb]; exact i.disj
  · simp only [sb]; exact i.snodup
  · intro s hs
    rw [sb]; exact i.snone s (Nat.le_of_succ_le hs)
  · exact i.anodup
  · simp only [en]; exact i.active
  · simp only [sb, en]; exact i.runs
  · simp only [en]; exact i.endle
  · simp only [en]; exact i.enodup
  · simp only [en]; exact i.sub
  · simp only [en, fe]; exact i.fend
  · simp only [fe]; exact i.fgone
  · simp only [fe]; exact i.fnodup
  · simp only [en, fe, sb, c]; exact i.view

theorem inv_started {st : St} {h : History} (i : Inv st h) (s : Nat) (l : List Nat) (hl : lookup s st.sessions = some l) :
    Inv { st with runno := st.runno + 1, active := st.active ++ [st.runno + 1], sessions := push s (st.runno + 1) st.sessions }
      (h ++ [(.run s .started, .runno (st.runno + 1))]) := by
  have hopen : IsOpen h s := by
    by_cases ho : IsOpen h s
    · exact ho
    · rw [i.noLook s ho] at hl; simp at hl
  have hs : s < st.nextSession := (i.opened s).mp hopen.1
  have sb : ∀ t, startedBy (h ++ [(Act.run s .started, Out.runno (st.runno + 1))]) t =
      startedBy h t ++ if s = t then [st.runno + 1] else [] := fun t => by
    rw [startedBy_snoc]; congr 1; by_cases e : s = t <;> simp [startedBy, e]
  have en : ended (h ++ [(Act.run s .started, Out.runno (st.runno + 1))]) = ended h := by rw [ended_snoc]; simp [ended]
  have fe : fetched (h ++ [(Act.run s .started, Out.runno (st.runno + 1))]) = fetched h := by rw [fetched_snoc]; simp [fetched]
  have c : ∀ t, Closed (h ++ [(Act.run s .started, Out.runno (st.runno + 1))]) t ↔ Closed h t := fun t => by rw [closed_snoc]; simp
  have o : ∀ t, Opened (h ++ [(Act.run s .started, Out.runno (st.runno + 1))]) t ↔ Opened h t := fun t => by rw [opened_snoc]; simp
  have oo : ∀ t, IsOpen (h ++ [(Act.run s .started, Out.runno (st.runno + 1))]) t ↔ IsOpen h t := fun t => by unfold IsOpen; rw [o, c]
  have mem : ∀ t r, r ∈ startedBy (h ++ [(Act.run s .started, Out.runno (st.runno + 1))]) t → r ∈ startedBy h t ∨ (t = s ∧ r = st.runno + 1) := by
    intro t r hr
    rw [sb, List.mem_append] at hr
    rcases hr with hr | hr
    · exact Or.inl hr
    · by_cases e : s = t
      · rw [if_pos e] at hr; exact Or.inr ⟨e.symm, by simpa using hr⟩
      · rw [if_neg e] at hr; simp at hr
  have big : ∀ t, st.runno + 1 ∉ startedBy h t := fun t hr => by have := i.startle t _ hr; omega
  constructor
  · show ((push s _ st.sessions).map Prod.fst).Nodup
    rw [push_fst]; exact i.keys
  · show ∀ k ∈ (push s _ st.sessions).map Prod.fst, _
    rw [push_fst]; exact i.keyslt
  · intro t ht
    rw [oo] at ht
    show lookup t (push s _ st.sessions) = _
    rw [lookup_push, sb]
    by_cases e : t = s
    · subst e; simp [i.openLook t ht]
    · simp [e, Ne.symm e, i.openLook t ht]
  · intro t ht
    rw [oo] at ht
    show lookup t (push s _ st.sessions) = _
    rw [lookup_push, i.noLook t ht]; simp
  · intro t; rw [o]; exact i.opened t
  · intro t ht; exact i.closedlt t ((c t).mp ht)
  · intro t r hr
    show r ≤ st.runno + 1
    rcases mem t r hr with hr | ⟨_, rfl⟩
    · exact Nat.le_succ_of_le (i.startle t r hr)
    · exact Nat.le_refl _
  · intro t t' r h1 h2
    rcases mem t r h1 with h1 | ⟨e1, e1'⟩ <;> rcases mem t' r h2 with h2 | ⟨e2, e2'⟩
    · exact i.disj t t' r h1 h2
    · subst e2'; exact absurd h1 (big t)
    · subst e1'; exact absurd h2 (big t')
    · rw [e1, e2]
  · intro t
    rw [sb]
    by_cases e : s = t
    · rw [if_pos e]
      exact List.nodup_append.mpr ⟨i.snodup t, by simp, by intro a ha b hb e'; simp at hb; exact big t (by rw [← hb, ← e']; exact ha)⟩
    · rw [if_neg e, List.append_nil]; exact i.snodup t
  · intro t ht
    have ht' : st.nextSession ≤ t := ht
    rw [sb, if_neg (by omega), List.append_nil]; exact i.snone t ht
  · exact List.nodup_append.mpr ⟨i.anodup, by simp, by
      intro a ha b hb e
      simp at hb
      have := (i.active a ha).1
      omega⟩
  · intro r hr
    rw [en]
    have hr' : r ∈ st.active ++ [st.runno + 1] := hr
    show r ≤ st.runno + 1 ∧ _
    rw [List.mem_append, List.mem_singleton] at hr'
    rcases hr' with hr' | rfl
    · exact ⟨Nat.le_succ_of_le (i.active r hr').1, (i.active r hr').2⟩
    · exact ⟨Nat.le_refl _, fun hm => by have := i.endle _ hm; omega⟩
  · intro t r hr
    rw [en]
    show r ∈ st.active ++ [st.runno + 1] ∨ _
    rcases mem t r hr with hr | ⟨_, rfl⟩
    · rcases i.runs t r hr with h1 | h1
      · exact Or.inl (by simp [h1])
      · exact Or.inr h1
    · exact Or.inl (by simp)
  · intro r hr
    rw [en] at hr
    exact Nat.le_succ_of_le (i.endle r hr)
  · rw [en]; exact i.enodup
  · rw [en]; exact i.sub
  · rw [en, fe]; exact i.fend
  · rw [fe]; exact i.fgone
  · rw [fe]; exact i.fnodup
  · intro t ht e he hr
    rw [fe]
    rw [en] at he
    rw [c] at ht
    rcases mem t _ hr with hr | ⟨_, hr⟩
    · exact i.view t ht e he hr
    · have := i.endle e.1 (List.mem_map_of_mem he); omega

theorem inv_get {st : St} {h : History} (i : Inv st h) (s r d : Nat) (hf : fetch r st.completed = some d) :
    Inv { st with completed := erase r st.completed } (h ++ [(.get s r, .data d)]) := by
  have sb : ∀ t, startedBy (h ++ [(Act.get s r, Out.data d)]) t = startedBy h t := fun t => by rw [startedBy_snoc]; simp [startedBy]
  have en : ended (h ++ [(Act.get s r, Out.data d)]) = ended h := by rw [ended_snoc]; simp [ended]
  have fe : fetched (h ++ [(Act.get s r, Out.data d)]) = fetched h ++ [r] := by rw [fetched_snoc]; simp [fetched]
  have c : ∀ t, Closed (h ++ [(Act.get s r, Out.data d)]) t ↔ Closed h t := fun t => by rw [closed_snoc]; simp
  have o : ∀ t, Opened (h ++ [(Act.get s r, Out.data d)]) t ↔ Opened h t := fun t => by rw [opened_snoc]; simp
  have oo : ∀ t, IsOpen (h ++ [(Act.get s r, Out.data d)]) t ↔ IsOpen h t := fun t => by unfold IsOpen; rw [o, c]
  have hm : (r, some d) ∈ st.completed := (fetch_some i.cnodup).mp hf
  have hr : r ∈ st.completed.map Prod.fst := List.mem_map_of_mem hm (f := Prod.fst)
  have er := erase_eq (r := r) i.cnodup
  constructor
  · exact i.keys
  · exact i.keyslt
  · simp only [oo, sb]; exact i.openLook
  · simp only [oo]; exact i.noLook
  · simp only [o]; exact i.opened
  · simp only [c]; exact i.closedlt
  · simp only [sb]; exact i.startle
  · simp only [sb]; exact i.disj
  · simp only [sb]; exact i.snodup
  · simp only [sb]; exact i.snone
  · exact i.anodup
  · simp only [en]; exact i.active
  · simp only [sb, en]; exact i.runs
  · simp only [en]; exact i.endle
  · simp only [en]; exact i.enodup
  · show (erase r st.completed).Sublist _
    rw [en, er]; exact (List.filter_sublist).trans i.sub
  · intro x hx
    rw [fe, List.mem_append, List.mem_singleton] at hx
    rw [en]
    rcases hx with hx | rfl
    · exact i.fend x hx
    · exact (i.sub.map Prod.fst).subset hr
  · intro x hx
    rw [fe, List.mem_append, List.mem_singleton] at hx
    show x ∉ (erase r st.completed).map Prod.fst
    rw [er]
    intro hm'
    obtain ⟨e, he, he'⟩ := List.mem_map.mp hm'
    rw [List.mem_filter] at he
    rcases hx with hx | rfl
    · exact i.fgone x hx (by rw [← he']; exact List.mem_map_of_mem he.1)
    · simp [he'] at he
  · rw [fe]
    exact List.nodup_append.mpr ⟨i.fnodup, by simp, by
      intro a ha b hb e
      simp at hb
      exact i.fgone a ha (by rw [e, hb]; exact hr)⟩
  · intro t ht e he hr' hn
    rw [c] at ht; rw [en] at he; rw [sb] at hr'; rw [fe, List.mem_append, List.mem_singleton, not_or] at hn
    show e ∈ erase r st.completed
    rw [er, List.mem_filter]
    exact ⟨i.view t ht e he hr' hn.1, by simpa using hn.2⟩

theorem inv_close {st : St} {h : History} (i : Inv st h) (s : Nat) (l : List Nat) (hl : lookup s st.sessions = some l) :
    Inv { st with completed := l.foldl (fun c r => erase r c) st.completed, sessions := st.sessions.filter (fun e => e.1 ≠ s) }
      (h ++ [(.close s, .bool true)]) := by
  have hopen : IsOpen h s := by
    by_cases ho : IsOpen h s
    · exact ho
    · rw [i.noLook s ho] at hl; simp at hl
  have hl' : l = startedBy h s := by rw [i.openLook s hopen] at hl; exact (Option.some.inj hl).symm
  have sb : ∀ t, startedBy (h ++ [(Act.close s, Out.bool true)]) t = startedBy h t := fun t => by rw [startedBy_snoc]; simp [startedBy]
  have en : ended (h ++ [(Act.close s, Out.bool true)]) = ended h := by rw [ended_snoc]; simp [ended]
  have fe : fetched (h ++ [(Act.close s, Out.bool true)]) = fetched h := by rw [fetched_snoc]; simp [fetched]
  have c : ∀ t, Closed (h ++ [(Act.close s, Out.bool true)]) t ↔ Closed h t ∨ t = s := fun t => by rw [closed_snoc]; simp [eq_comm]
  have o : ∀ t, Opened (h ++ [(Act.close s, Out.bool true)]) t ↔ Opened h t := fun t => by rw [opened_snoc]; simp
  have er := eraseAll_eq l i.cnodup
  constructor
  · exact i.keys.sublist ((List.filter_sublist).map _)
  · intro k hk
    exact i.keyslt k (((List.filter_sublist).map Prod.fst).subset hk)
  · rintro t ⟨h1, h2⟩
    rw [o] at h1; rw [c, not_or] at h2
    show lookup t (st.sessions.filter _) = _
    rw [lookup_filter, if_neg h2.2, sb]; exact i.openLook t ⟨h1, h2.1⟩
  · intro t ht
    show lookup t (st.sessions.filter _) = _
    rw [lookup_filter]
    by_cases e : t = s
    · rw [if_pos e]
    · rw [if_neg e]; apply i.noLook
      rintro ⟨h1, h2⟩
      exact ht ⟨(o t).mpr h1, fun hc => (((c t).mp hc).elim h2 e)⟩
  · simp only [o]; exact i.opened
  · intro t ht
    rcases (c t).mp ht with h1 | rfl
    · exact i.closedlt t h1
    · exact (i.opened _).mp hopen.1
  · simp only [sb]; exact i.startle
  · simp only [sb]; exact i.disj
  · simp only [sb]; exact i.snodup
  · simp only [sb]; exact i.snone
  · exact i.anodup
  · simp only [en]; exact i.active
  · simp only [sb, en]; exact i.runs
  · simp only [en]; exact i.endle
  · simp only [en]; exact i.enodup
  · show (l.foldl (fun c r => erase r c) st.completed).Sublist _
    rw [en, er]; exact (List.filter_sublist).trans i.sub
  · simp only [en, fe]; exact i.fend
  · intro x hx
    rw [fe] at hx
    show x ∉ (l.foldl (fun c r => erase r c) st.completed).map Prod.fst
    rw [er]
    exact fun hm => i.fgone x hx (((List.filter_sublist).map Prod.fst).subset hm)
  · simp only [fe]; exact i.fnodup
  · intro t ht e he hr hn
    rw [c, not_or] at ht; rw [en] at he; rw [sb] at hr; rw [fe] at hn
    show e ∈ l.foldl (fun c r => erase r c) st.completed
    rw [er, List.mem_filter]
    refine ⟨i.view t ht.1 e he hr hn, ?_⟩
    have : e.1 ∉ l := by rw [hl']; exact fun hm => ht.2 (i.disj t s e.1 hr hm)
    simpa using this

theorem inv_finish {st : St} {h : History} (i : Inv st h) (r : Nat) (z : Option Nat) (ha : r ∈ st.active) :
    Inv { st with active := st.active.erase r, completed := st.completed ++ [(r, z)] } (h ++ [(.finish r z, .moved)]) := by
  have sb : ∀ t, startedBy (h ++ [(Act.finish r z, Out.moved)]) t = startedBy h t := fun t => by rw [startedBy_snoc]; simp [startedBy]
  have en : ended (h ++ [(Act.finish r z, Out.moved)]) = ended h ++ [(r, z)] := by rw [ended_snoc]; simp [ended]
  have fe : fetched (h ++ [(Act.finish r z, Out.moved)]) = fetched h := by rw [fetched_snoc]; simp [fetched]
  have c : ∀ t, Closed (h ++ [(Act.finish r z, Out.moved)]) t ↔ Closed h t := fun t => by rw [closed_snoc]; simp
  have o : ∀ t, Opened (h ++ [(Act.finish r z, Out.moved)]) t ↔ Opened h t := fun t => by rw [opened_snoc]; simp
  have oo : ∀ t, IsOpen (h ++ [(Act.finish r z, Out.moved)]) t ↔ IsOpen h t := fun t => by unfold IsOpen; rw [o, c]
  have hne := (i.active r ha).2
  constructor
  · exact i.keys
  · exact i.keyslt
  · simp only [oo, sb]; exact i.openLook
  · simp only [oo]; exact i.noLook
  · simp only [o]; exact i.opened
  · simp only [c]; exact i.closedlt
  · simp only [sb]; exact i.startle
  · simp only [sb]; exact i.disj
  · simp only [sb]; exact i.snodup
  · simp only [sb]; exact i.snone
  · exact i.anodup.erase r
  · intro x hx
    have hx' := (i.anodup.mem_erase_iff).mp hx
    refine ⟨(i.active x hx'.2).1, ?_⟩
    rw [en, List.map_append, List.mem_append, not_or]
    exact ⟨(i.active x hx'.2).2, by simpa using hx'.1⟩
  · intro t x hx
    rw [sb] at hx
    rw [en, List.map_append, List.mem_append]
    show x ∈ st.active.erase r ∨ _
    rcases i.runs t x hx with h1 | h1
    · by_cases e : x = r
      · exact Or.inr (Or.inr (by simp [e]))
      · exact Or.inl ((i.anodup.mem_erase_iff).mpr ⟨e, h1⟩)
    · exact Or.inr (Or.inl h1)
  · intro x hx
    rw [en, List.map_append, List.mem_append] at hx
    rcases hx with hx | hx
    · exact i.endle x hx
    · have : x = r := by simpa using hx
      rw [this]; exact (i.active r ha).1
  · rw [en, List.map_append]
    exact List.nodup_append.mpr ⟨i.enodup, by simp, by
      intro a ha' b hb e
      simp at hb
      exact hne (by rw [← hb, ← e]; exact ha')⟩
  · rw [en]; exact i.sub.append (List.Sublist.refl _)
  · intro x hx
    rw [fe] at hx
    rw [en, List.map_append, List.mem_append]
    exact Or.inl (i.fend x hx)
  · intro x hx
    rw [fe] at hx
    show x ∉ (st.completed ++ [(r, z)]).map Prod.fst
    rw [List.map_append, List.mem_append, not_or]
    refine ⟨i.fgone x hx, ?_⟩
    intro hm
    have : x = r := by simpa using hm
    exact hne (this ▸ i.fend x hx)
  · simp only [fe]; exact i.fnodup
  · intro t ht e he hr hn
    rw [c] at ht; rw [en, List.mem_append] at he; rw [sb] at hr; rw [fe] at hn
    show e ∈ st.completed ++ [(r, z)]
    rw [List.mem_append]
    rcases he with he | he
    · exact Or.inl (i.view t ht e he hr hn)
    · exact Or.inr he

theorem inv_step {st : St} {h : History} (i : Inv st h) (a : Act) : Inv (step st a).1 (h ++ [(a, (step st a).2)]) := by
  cases a with
  | start => exact inv_start i
  | run s o =>
    simp only [step]
    cases hl : lookup s st.sessions with
    | none => exact i.quiet (by simp) (by simp) (by simp [startedBy]) (by simp [ended]) (by simp [fetched])
    | some l =>
      cases o with
      | started => exact inv_started i s l hl
      | timeout => exact i.bump.quiet (by simp) (by simp) (by simp [startedBy]) (by simp [ended]) (by simp [fetched])
      | raises => exact i.bump.quiet (by simp) (by simp) (by simp [startedBy]) (by simp [ended]) (by simp [fetched])
  | sources s =>
    simp only [step]
    cases hl : lookup s st.sessions with
    | none => exact i.quiet (by simp) (by simp) (by simp [startedBy]) (by simp [ended]) (by simp [fetched])
    | some l => exact i.quiet (by simp) (by simp) (by simp [startedBy]) (by simp [ended]) (by simp [fetched])
  | status s =>
    simp only [step]
    cases hl : lookup s st.sessions with
    | none => exact i.quiet (by simp) (by simp) (by simp [startedBy]) (by simp [ended]) (by simp [fetched])
    | some l => exact i.quiet (by simp) (by simp) (by simp [startedBy]) (by simp [ended]) (by simp [fetched])
  | get s r =>
    simp only [step]
    cases hl : lookup s st.sessions with
    | none => exact i.quiet (by simp) (by simp) (by simp [startedBy]) (by simp [ended]) (by simp [fetched])
    | some l =>
      simp only
      by_cases hc : l.contains r
      · rw [if_pos hc]
        cases hf : fetch r st.completed with
        | some d => exact inv_get i s r d hf
        | none => exact i.quiet (by simp) (by simp) (by simp [startedBy]) (by simp [ended]) (by simp [fetched])
      · rw [if_neg hc]
        exact i.quiet (by simp) (by simp) (by simp [startedBy]) (by simp [ended]) (by simp [fetched])
  | close s =>
    simp only [step]
    cases hl : lookup s st.sessions with
    | none => exact i.quiet (by simp) (by simp) (by simp [startedBy]) (by simp [ended]) (by simp [fetched])
    | some l => exact inv_close i s l hl
  | finish r z =>
    simp only [step]
    by_cases ha : st.active.contains r
    · rw [if_pos ha]; exact inv_finish i r z (by simpa using ha)
    · rw [if_neg ha]; exact i.quiet (by simp) (by simp) (by simp [startedBy]) (by simp [ended]) (by simp [fetched])

theorem inv_exec {st : St} {h : History} (i : Inv st h) (as : List Act) : Inv (exec st as).1 (h ++ (exec st as).2) := by
  induction as generalizing st h with
  | nil => simpa [exec] using i
  | cons a as ih =>
    have := ih (inv_step i a)
    simpa [exec, List.append_assoc] using this

/-- Every state the server can be in, with the history that led there. -/
theorem inv_reach (as : List Act) : Inv (exec init as).1 (exec init as).2 := by
  have := inv_exec inv_init as
  simpa using this

end Lemmas.Server
