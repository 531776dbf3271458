import Verif.Model.Callback
import Mathlib.Data.List.Nodup
import Mathlib.Tactic.SplitIfs
import Mathlib.Tactic.ByContra
import Mathlib.Data.List.Perm.Subperm
/-
C82: arguments of callbacks.
-/
namespace Props.Callback
open Model.Callback Spec.PyCall
variable {A : Type}

/-- A function `def f(p0, p1, …)` with plain parameters. -/
def plain (names : List Str) : List Param := names.map (fun n => ⟨n, .normal, false⟩)

/-- The arguments belong to these names, in this order: a tuple by position, a dictionary by name. -/
def Belongs (names : List Str) (args : Args A) (vs : List A) : Prop :=
  match args with
  | .none => names = [] ∧ vs = []
  | .tuple us => us.length = names.length ∧ vs = us
  | .dict d => d.length = names.length ∧ List.Forall₂ (fun n v => (n, v) ∈ d) names vs

theorem plain_length (names : List Str) : (plain names).length = names.length := by simp [plain]

theorem lookup_mem {d : List (Str × A)} (hd : (d.map Prod.fst).Nodup) (n : Str) (v : A) : d.lookup n = some v ↔ (n, v) ∈ d := by
  induction d with
  | nil => simp
  | cons e d ih =>
    obtain ⟨k, u⟩ := e
    rw [List.map_cons, List.nodup_cons] at hd
    rw [List.lookup_cons]
    by_cases h : n = k
    · subst h
      simp only [beq_self_eq_true]
      constructor
      · intro h; injection h with h; rw [h]; exact List.mem_cons_self
      · intro h
        rcases List.mem_cons.mp h with h | h
        · injection h with _ h; rw [h]
        · exact absurd (List.mem_map.mpr ⟨(n, v), h, rfl⟩) hd.1
    · rw [beq_eq_false_iff_ne.mpr h]
      dsimp only
      rw [ih hd.2]
      constructor
      · exact List.mem_cons_of_mem _
      · intro h'
        rcases List.mem_cons.mp h' with h' | h'
        · injection h' with h1 _; exact absurd h1 h
        · exact h'

theorem notFound_none (d : List (Str × A)) (hd : (d.map Prod.fst).Nodup) : ∀ (names : List Str), notFound d (plain names) = none ↔
    ∃ vs, List.Forall₂ (fun n v => (n, v) ∈ d) names vs := by
  intro names
  induction names with
  | nil => exact ⟨fun _ => ⟨[], List.Forall₂.nil⟩, fun _ => rfl⟩
  | cons n ns ih =>
    show (if (d.lookup n).isSome then notFound d (plain ns) else some n) = none ↔ _
    cases hl : d.lookup n with
    | none =>
      simp only [Option.isSome_none, Bool.false_eq_true, if_false, reduceCtorEq, false_iff]
      rintro ⟨vs, h⟩
      cases h with
      | cons h1 _ => rw [← lookup_mem hd, hl] at h1; cases h1
    | some v =>
      simp only [Option.isSome_some, if_true]
      rw [ih]
      constructor
      · rintro ⟨vs, h⟩; exact ⟨v :: vs, List.Forall₂.cons ((lookup_mem hd n v).mp hl) h⟩
      · rintro ⟨vs, h⟩
        cases h with
        | cons _ h2 => exact ⟨_, h2⟩

/-- C82: `run` accepts the arguments of a callback exactly when the callback has two parameters, or it has more and the arguments are
one for each further parameter: a tuple of as many values, or a dictionary with exactly these names. -/
theorem C82_accepted_iff (names : List Str) (args : Args A) (hd : ∀ d, args = .dict d → (d.map Prod.fst).Nodup) :
    (∃ kw, validate (plain names) args = .ok kw) ↔
      names.length = 2 ∨ (2 < names.length ∧ ∃ vs, Belongs (names.drop 2) args vs) := by
  have hdrop : (plain names).drop 2 = plain (names.drop 2) := by simp [plain]
  unfold validate
  rw [plain_length, hdrop]
  by_cases h1 : names.length < 2
  · rw [if_pos h1]
    constructor
    · rintro ⟨_, h⟩; cases h
    · rintro (h | h) <;> omega
  · rw [if_neg h1]
    by_cases h2 : names.length > 2
    · rw [if_pos h2]
      have hl : (names.drop 2).length = names.length - 2 := List.length_drop
      have hr : (names.length = 2 ∨ (2 < names.length ∧ ∃ vs, Belongs (names.drop 2) args vs)) ↔ ∃ vs, Belongs (names.drop 2) args vs := by
        constructor
        · rintro (h | h)
          · omega
          · exact h.2
        · exact fun h => Or.inr ⟨h2, h⟩
      rw [hr]
      cases args with
      | none =>
        constructor
        · rintro ⟨_, h⟩; cases h
        · rintro ⟨_, h, _⟩; rw [h] at hl; simp at hl; omega
      | tuple us =>
        dsimp only [Belongs]
        rw [hl]
        split_ifs with h
        · constructor
          · rintro ⟨_, h⟩; cases h
          · rintro ⟨_, h', _⟩; omega
        · exact ⟨fun _ => ⟨us, by omega, rfl⟩, fun _ => ⟨_, rfl⟩⟩
      | dict d =>
        dsimp only [Belongs]
        rw [hl]
        have hn := notFound_none d (hd d rfl) (names.drop 2)
        cases hf : notFound d (plain (names.drop 2)) with
        | some n =>
          dsimp only
          constructor
          · rintro ⟨_, h⟩; cases h
          · rintro ⟨vs, _, h⟩
            rw [hn.mpr ⟨vs, h⟩] at hf; cases hf
        | none =>
          dsimp only
          split_ifs with h
          · constructor
            · rintro ⟨_, h⟩; cases h
            · rintro ⟨_, h', _⟩; omega
          · obtain ⟨vs, hv⟩ := hn.mp hf
            exact ⟨fun _ => ⟨vs, by omega, hv⟩, fun _ => ⟨_, rfl⟩⟩
    · rw [if_neg h2]
      exact ⟨fun _ => Or.inl (by omega), fun _ => ⟨_, rfl⟩⟩

theorem byName_plain (names : List Str) : byName (plain names) = names := by
  unfold byName plain
  induction names with
  | nil => rfl
  | cons n ns ih => simp [ih]

theorem bind_rest (all : List Str) (kw : List (Str × A)) : ∀ (names : List Str) (vs : List A),
    List.Forall₂ (fun n v => kw.lookup n = some v) names vs →
    bindGo all kw (plain names) [] = some (names.zip (vs.map Bound.value)) := by
  intro names vs h
  induction h with
  | nil => rfl
  | @cons n v ns vs h1 _ ih =>
    show (match kw.lookup n with
      | some a => (bindGo all kw (plain ns) []).map ((n, Bound.value a) :: ·)
      | none => none) = _
    rw [h1]
    dsimp only
    rw [ih]
    rfl

theorem lookup_absent {d : List (Str × A)} {n : Str} (h : n ∉ d.map Prod.fst) : d.lookup n = none := by
  rw [List.lookup_eq_none_iff]
  intro e he
  have : n ≠ e.1 := fun hh => h (List.mem_map.mpr ⟨e, he, hh.symm⟩)
  simpa using this

/-- Calling a plain function with two positional arguments and a dictionary of the remaining parameters. -/
theorem bind_plain (p0 p1 : Str) (names : List Str) (a b : A) (kw : List (Str × A)) (vs : List A)
    (hnd : (p0 :: p1 :: names).Nodup) (hk : ∀ e ∈ kw, e.1 ∈ names)
    (h : List.Forall₂ (fun n v => kw.lookup n = some v) names vs) :
    pyBind (plain (p0 :: p1 :: names)) [a, b] kw = some ((p0, .value a) :: (p1, .value b) :: names.zip (vs.map Bound.value)) := by
  have h0 : p0 ∉ kw.map Prod.fst := by
    intro hm
    obtain ⟨e, he, rfl⟩ := List.mem_map.mp hm
    exact (List.nodup_cons.mp hnd).1 (List.mem_cons_of_mem _ (hk e he))
  have h1 : p1 ∉ kw.map Prod.fst := by
    intro hm
    obtain ⟨e, he, rfl⟩ := List.mem_map.mp hm
    exact (List.nodup_cons.mp (List.nodup_cons.mp hnd).2).1 (hk e he)
  unfold pyBind
  rw [byName_plain, if_pos]
  · have e0 := lookup_absent h0
    have e1 := lookup_absent h1
    show (if (kw.lookup p0).isSome then none else
      (if (kw.lookup p1).isSome then none else (bindGo _ kw (plain names) []).map ((p1, Bound.value b) :: ·)).map ((p0, Bound.value a) :: ·)) = _
    rw [e0, e1]
    simp only [Option.isSome_none, Bool.false_eq_true, if_false]
    rw [bind_rest _ kw names vs h]
    rfl
  · rw [Bool.or_eq_true]
    right
    rw [List.all_eq_true]
    intro e he
    simp only [List.contains_eq_mem, decide_eq_true_eq]
    exact List.mem_cons_of_mem _ (List.mem_cons_of_mem _ (hk e he))

theorem keys_of_length {d : List (Str × A)} {names : List Str} (hd : (d.map Prod.fst).Nodup) (hnd : names.Nodup)
    (hl : d.length = names.length) (vs : List A) (h : List.Forall₂ (fun n v => (n, v) ∈ d) names vs) : ∀ e ∈ d, e.1 ∈ names := by
  have hsub : names ⊆ d.map Prod.fst := by
    have : ∀ (ns : List Str) (ws : List A), List.Forall₂ (fun n v => (n, v) ∈ d) ns ws → ns ⊆ d.map Prod.fst := by
      intro ns ws h
      induction h with
      | nil => simp
      | @cons n v ns vs h1 _ ih =>
        intro x hx
        rcases List.mem_cons.mp hx with rfl | hx
        · exact List.mem_map.mpr ⟨(x, v), h1, rfl⟩
        · exact ih hx
    exact this names vs h
  have hp : List.Subperm names (d.map Prod.fst) := List.subperm_of_subset hnd hsub
  have hperm : names.Perm (d.map Prod.fst) := hp.perm_of_length_le (by simp [hl])
  intro e he
  exact hperm.mem_iff.mpr (List.mem_map.mpr ⟨e, he, rfl⟩)

theorem named_forall (names : List Str) : ∀ (vs : List A), vs.length = names.length → names.Nodup →
    (named (plain names) vs).map Prod.fst = names ∧ List.Forall₂ (fun n v => (n, v) ∈ named (plain names) vs) names vs := by
  induction names with
  | nil =>
    intro vs h _
    have : vs = [] := List.length_eq_zero_iff.mp (by simpa using h)
    subst this
    exact ⟨rfl, List.Forall₂.nil⟩
  | cons n ns ih =>
    intro vs h hnd
    match vs, h with
    | v :: vs, h =>
      obtain ⟨i1, i2⟩ := ih vs (by simpa using h) (List.nodup_cons.mp hnd).2
      refine ⟨?_, List.Forall₂.cons List.mem_cons_self ?_⟩
      · show n :: (named (plain ns) vs).map Prod.fst = _
        rw [i1]
      · exact i2.imp (fun a b h => List.mem_cons_of_mem _ h)

theorem userTable_lookup (d : List (Str × A)) (n : Str) : (userTable (some d)).lookup n = (d.lookup n).map Arg.user := by
  show (d.map (fun e => (e.1, Arg.user e.2))).lookup n = _
  induction d with
  | nil => rfl
  | cons e d ih =>
    obtain ⟨k, v⟩ := e
    simp only [List.map_cons, List.lookup_cons]
    cases n == k <;> simp [ih]

theorem userTable_keys (d : List (Str × A)) (names : List Str) (h : ∀ e ∈ d, e.1 ∈ names) : ∀ e ∈ userTable (some d), e.1 ∈ names := by
  intro e he
  obtain ⟨x, hx, rfl⟩ := List.mem_map.mp he
  exact h x hx

/-- The dictionary handed to the callback: nothing for two parameters, otherwise one entry for each further parameter. -/
theorem validated (p0 p1 : Str) (names : List Str) (args : Args A) (kw : Option (List (Str × A))) (hnd : names.Nodup)
    (hd : ∀ d, args = .dict d → (d.map Prod.fst).Nodup) (h : validate (plain (p0 :: p1 :: names)) args = .ok kw) :
    (names = [] ∧ kw = none) ∨ ∃ d vs, kw = some d ∧ names ≠ [] ∧ Belongs names args vs ∧ (d.map Prod.fst).Nodup ∧ (∀ e ∈ d, e.1 ∈ names) ∧
      List.Forall₂ (fun n v => (n, v) ∈ d) names vs := by
  unfold validate at h
  have hdrop : (plain (p0 :: p1 :: names)).drop 2 = plain names := rfl
  rw [plain_length, hdrop, if_neg (by simp only [List.length_cons]; omega)] at h
  by_cases h2 : (p0 :: p1 :: names).length > 2
  · rw [if_pos h2] at h
    have hne : names ≠ [] := by rintro rfl; simp at h2
    right
    cases args with
    | none => cases h
    | tuple us =>
      dsimp only at h
      split_ifs at h with hl
      injection h with h
      have hl' : us.length = names.length := by simp only [List.length_cons] at hl; omega
      obtain ⟨i1, i2⟩ := named_forall names us hl' hnd
      refine ⟨_, us, h.symm, hne, ⟨hl', rfl⟩, by rw [i1]; exact hnd, ?_, i2⟩
      intro e he
      rw [← i1]; exact List.mem_map.mpr ⟨e, he, rfl⟩
    | dict d =>
      dsimp only at h
      cases hf : notFound d (plain names) with
      | some n => rw [hf] at h; cases h
      | none =>
        rw [hf] at h
        dsimp only at h
        split_ifs at h with hl
        injection h with h
        have hl' : d.length = names.length := by simp only [List.length_cons] at hl; omega
        obtain ⟨vs, hv⟩ := (notFound_none d (hd d rfl) names).mp hf
        exact ⟨d, vs, h.symm, hne, ⟨hl', hv⟩, hd d rfl, keys_of_length (hd d rfl) hnd hl' vs hv, hv⟩
  · rw [if_neg h2] at h
    injection h with h
    refine Or.inl ⟨?_, h.symm⟩
    simp only [List.length_cons] at h2
    exact List.length_eq_zero_iff.mp (by omega)

/-- C82: an accepted callback is called without an error; its first two parameters receive the raw and the log file, and each further
parameter the user's value that belongs to it. -/
theorem C82_called (p0 p1 : Str) (names : List Str) (args : Args A) (kw : Option (List (Str × A))) (hnd : (p0 :: p1 :: names).Nodup)
    (hd : ∀ d, args = .dict d → (d.map Prod.fst).Nodup) (h : validate (plain (p0 :: p1 :: names)) args = .ok kw) :
    ∃ vs, (names ≠ [] → Belongs names args vs) ∧ vs.length = names.length ∧
      call (plain (p0 :: p1 :: names)) kw =
        some ((p0, .value .raw) :: (p1, .value .log) :: names.zip (vs.map (fun v => Bound.value (Arg.user v)))) := by
  have hnn := (List.nodup_cons.mp (List.nodup_cons.mp hnd).2).2
  rcases validated p0 p1 names args kw hnn hd h with ⟨rfl, rfl⟩ | ⟨d, vs, rfl, hne, hb, hdd, hk, hv⟩
  · refine ⟨[], fun h => absurd rfl h, rfl, ?_⟩
    exact bind_plain p0 p1 [] Arg.raw Arg.log [] [] hnd (by intro e he; cases he) List.Forall₂.nil
  · refine ⟨vs, fun _ => hb, hv.length_eq.symm, ?_⟩
    unfold call
    have hl : List.Forall₂ (fun n v => (userTable (some d)).lookup n = some v) names (vs.map Arg.user) := by
      rw [List.forall₂_map_right_iff]
      refine hv.imp (fun n v hm => ?_)
      rw [userTable_lookup, (lookup_mem hdd n v).mpr hm]
      rfl
    rw [bind_plain p0 p1 names Arg.raw Arg.log _ _ hnd (userTable_keys d names hk) hl, List.map_map]
    rfl

/-- The names the constructor of ProcessCallback keeps for itself. -/
def reserved : List Str := ["self".toList, "raw".toList, "log".toList, "group".toList, "name".toList, "daemon".toList]

theorem ctor_bind (kw : List (Str × Arg A)) (h : ∀ e ∈ kw, e.1 ∉ reserved) :
    (kw.lookup "self".toList) = none ∧ ∃ b, pyBind ctor [.raw, .log] kw = some b ∧ b.lookup "kwargs".toList = some (.table kw) := by
  have ab : ∀ n ∈ reserved, kw.lookup n = none := by
    intro n hn
    refine lookup_absent ?_
    intro hm
    obtain ⟨e, he, rfl⟩ := List.mem_map.mp hm
    exact h e he hn
  have e1 := ab "raw".toList (by decide)
  have e2 := ab "log".toList (by decide)
  have e3 := ab "group".toList (by decide)
  have e4 := ab "name".toList (by decide)
  have e5 := ab "daemon".toList (by decide)
  refine ⟨ab "self".toList (by decide), ?_⟩
  have hb : byName ctor = ["raw".toList, "log".toList, "group".toList, "name".toList, "daemon".toList] := by decide
  have hf : kw.filter (fun e => !(byName ctor).contains e.1) = kw := by
    rw [List.filter_eq_self]
    intro e he
    rw [hb]
    have := h e he
    simp only [Bool.not_eq_true', List.contains_eq_mem, decide_eq_false_iff_not]
    intro hm
    exact this (List.mem_cons_of_mem _ hm)
  refine ⟨[("raw".toList, .value .raw), ("log".toList, .value .log), ("group".toList, .default), ("name".toList, .default),
    ("daemon".toList, .default), ("kwargs".toList, .table kw)], ?_, rfl⟩
  unfold pyBind
  have hv : ctor.any (fun p => p.kind = .varKeyword) = true := by decide
  rw [hv, Bool.true_or, if_pos rfl]
  unfold ctor at *
  simp only [bindGo, e1, e2, e3, e4, e5, hf]
  rfl

/-- C82: a callback in a process of its own receives the same arguments, provided none of its further parameters has a name that the
process object uses itself. -/
theorem C82_called_in_process (p0 p1 : Str) (names : List Str) (args : Args A) (kw : Option (List (Str × A))) (hnd : (p0 :: p1 :: names).Nodup)
    (hd : ∀ d, args = .dict d → (d.map Prod.fst).Nodup) (hres : ∀ n ∈ names, n ∉ reserved)
    (h : validate (plain (p0 :: p1 :: names)) args = .ok kw) :
    processCall (plain (p0 :: p1 :: names)) kw = call (plain (p0 :: p1 :: names)) kw := by
  have hnn := (List.nodup_cons.mp (List.nodup_cons.mp hnd).2).2
  have hkeys : ∀ e ∈ userTable kw, e.1 ∉ reserved := by
    rcases validated p0 p1 names args kw hnn hd h with ⟨_, rfl⟩ | ⟨d, vs, rfl, _, _, _, hk, _⟩
    · intro e he; cases he
    · intro e he
      exact hres _ (userTable_keys d names hk e he)
  obtain ⟨h1, b, h2, h3⟩ := ctor_bind (userTable kw) hkeys
  unfold processCall
  rw [h1]
  simp only [Option.isSome_none, Bool.false_eq_true, if_false]
  rw [h2]
  dsimp only
  rw [h3]
  rfl

/-- C82: when the arguments are refused, nothing has happened: no run number is used, nothing is written. When they are accepted, the run is
prepared. Without a callback any arguments are accepted and ignored. -/
theorem C82_refused_before_start (s : Model.Runner.St) (name : List Char) (explicit : Bool) (callback : Option (List Param)) (args : Args A) :
    ((∃ e, (start s name explicit callback args).2 = .error e) → (start s name explicit callback args).1 = s) ∧
    (∀ kw, (start s name explicit callback args).2 = .ok kw → (start s name explicit callback args).1.runno = s.runno + 1) ∧
    (callback = none → (start s name explicit callback args).2 = .ok none) := by
  unfold start validateOpt
  refine ⟨?_, ?_, ?_⟩
  · rintro ⟨e, h⟩
    cases callback with
    | none => cases h
    | some ps =>
      dsimp only at h ⊢
      cases hv : validate ps args with
      | error e' => rfl
      | ok kw => rw [hv] at h; cases h
  · intro kw h
    cases callback with
    | none => rfl
    | some ps =>
      dsimp only at h ⊢
      cases hv : validate ps args with
      | error e' => rw [hv] at h; cases h
      | ok kw => rfl
  · rintro rfl
    rfl

/-- C82: a callback in a process delivers what the method returns, and a text when it returns nothing. -/
theorem C82_process_result (text : A) (v : A) : processResult text (some v) = v ∧ processResult text none = text := ⟨rfl, rfl⟩

/-! ### Samples and limits -/

def ps3 : List Param := plain ["raw".toList, "log".toList, "n".toList, "tag".toList]

/-- What `run` does with the arguments, and what the callback receives. -/
def outcome (ps : List Param) (args : Args Nat) : Except Refusal (Option (List (Str × Bound (Arg Nat)))) :=
  match validate ps args with
  | .error e => .error e
  | .ok kw => .ok (call ps kw)

def refusal {X : Type} : Except Refusal X → Option Refusal | .error e => some e | .ok _ => none

theorem C82_sample :
    (outcome ps3 (.dict [("tag".toList, 7), ("n".toList, 5)])).toOption = some (some [("raw".toList, .value .raw), ("log".toList, .value .log), ("n".toList, .value (.user 5)), ("tag".toList, .value (.user 7))]) ∧
    (outcome ps3 (.tuple [5, 7])).toOption = some (some [("raw".toList, .value .raw), ("log".toList, .value .log), ("n".toList, .value (.user 5)), ("tag".toList, .value (.user 7))]) ∧
    refusal (outcome ps3 (.tuple [5])) = some .count ∧ refusal (outcome ps3 .none) = some .noArguments ∧
    refusal (outcome ps3 (.dict [("tag".toList, 7)])) = some (.notFound "n".toList) ∧
    refusal (outcome (plain ["raw".toList]) .none) = some .fewParameters ∧
    (outcome (plain ["a".toList, "b".toList]) (.tuple [1, 2])).toOption = some (some [("a".toList, .value .raw), ("b".toList, .value .log)]) := by
  refine ⟨?_, ?_, ?_, ?_, ?_, ?_, ?_⟩ <;> decide +kernel

/-- Limit: parameters with defaults are not optional: `def cb(raw, log, n=3)` needs an argument. -/
theorem C82_default_not_used : refusal (outcome [⟨"raw".toList, .normal, false⟩, ⟨"log".toList, .normal, false⟩, ⟨"n".toList, .normal, true⟩] .none) = some .noArguments := by
  decide +kernel

/-- Limit: arguments for `def cb(raw, log, *rest)` and `def cb(raw, log, **kw)` are accepted only under the name of the starred parameter; the call
of the first then fails. -/
theorem C82_starred_parameters :
    (outcome [⟨"raw".toList, .normal, false⟩, ⟨"log".toList, .normal, false⟩, ⟨"rest".toList, .varPositional, false⟩] (.tuple [1])).toOption = some none ∧
    refusal (outcome [⟨"raw".toList, .normal, false⟩, ⟨"log".toList, .normal, false⟩, ⟨"kw".toList, .varKeyword, false⟩] (.dict [("n".toList, 1)])) = some (.notFound "kw".toList) := by
  decide +kernel

/-- Limit: the argument `name` of a callback in a process is taken by the process object, and the call fails. -/
theorem C82_process_reserved_name : validate (plain ["raw".toList, "log".toList, "name".toList]) (.tuple [1]) = .ok (some [("name".toList, 1)]) ∧
    processCall (plain ["raw".toList, "log".toList, "name".toList]) (some [("name".toList, 1)]) = none := by
  refine ⟨rfl, ?_⟩
  decide +kernel

end Props.Callback
