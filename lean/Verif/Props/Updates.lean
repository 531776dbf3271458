import Verif.Lemmas.Updates
/-
C07: the edit journal (editor/updates.py);  C12: TaskIterator.match_conditions (sim/sim_runner.py).
-/
namespace Props.Updates
open Model.Updates Spec Lemmas.Updates

variable {V : Type} [DecidableEq V]

/-- What identifies a record in the journal, from the English claim: its name and kind, and for
instructions also their text. -/
def identOp (o : Op V) : String × UpdateType × Option V :=
  (o.name, o.kind, if o.name = "INSTRUCTION" then some o.value else none)
def identRec (u : Update V) : String × UpdateType × Option V :=
  (u.name, u.kind, if u.name = "INSTRUCTION" then some u.value else none)

/-- C07, at most one record per key: for every sequence of edits of any kind whatsoever (including the
`InvalidUpdate` marker), no two records of the journal have the same identity. -/
theorem C07_no_duplicate_records (ops : List (Op V)) : ((journal ops).map identRec).Nodup := by
  show ((journal ops).map ukey).Nodup
  suffices H : ∀ (l : List (Op V)) (j : List (Update V)), (j.map ukey).Nodup →
      ((l.foldl (fun j o => addUpdate o.name o.value o.kind j) j).map ukey).Nodup from
    H ops [] (by simp)
  intro l
  induction l with
  | nil => intro j h; exact h
  | cons o l ih =>
    intro j h
    simp only [List.foldl_cons]
    apply ih
    rw [keys_addUpdate]
    split
    · exact h
    · rename_i hn
      rw [List.nodup_append]
      refine ⟨h, by simp, ?_⟩
      intro a ha b hb
      simp only [List.mem_singleton] at hb
      subst hb
      intro he
      subst he
      exact hn (any_hits_of_key_mem _ _ _ _ ha)

/-- C07, exact content: for edits of proper kinds the journal is, record by record, the list of distinct
keys in order of their first edit, each with the value of its last edit. -/
theorem C07_journal_is_last_write_wins (ops : List (Op V)) (hk : ∀ o ∈ ops, o.kind ≠ .invalidUpdate) :
    (journal ops).map identRec = firstOccurrences (ops.map identOp) ∧
    ∀ u ∈ journal ops, lastValue (identRec u) (ops.map fun o => (identOp o, o.value)) = some u.value := by
  suffices H : ∀ n (l : List (Op V)), l.length = n → (∀ o ∈ l, o.kind ≠ .invalidUpdate) →
    (journal l).map ukey = firstOccurrences (l.map okey) ∧
    ∀ u ∈ journal l, lastValue (ukey u) (l.map fun o => (okey o, o.value)) = some u.value from
    H _ ops rfl hk
  intro n
  induction n with
  | zero =>
    intro l hl _
    obtain rfl := List.eq_nil_of_length_eq_zero hl
    simp [journal, firstOccurrences]
  | succ n ih =>
    intro l hl hk
    have hne : l ≠ [] := by intro h; simp [h] at hl
    obtain ⟨ops, o, rfl⟩ : ∃ ops o, l = ops ++ [o] := ⟨l.dropLast, l.getLast hne, (List.dropLast_concat_getLast hne).symm⟩
    obtain ⟨h1, h2⟩ := ih ops (by simp at hl; omega) (fun o ho => hk o (by simp [ho]))
    have hko : o.kind ≠ .invalidUpdate := hk o (by simp)
    rw [journal_append]
    constructor
    · rw [keys_addUpdate, List.map_append, List.map_singleton, firstOccurrences_append_singleton, ← h1]
      have hmem : (journal ops).any (hits o.name o.value o.kind) = true ↔ okey o ∈ ops.map okey := by
        rw [← mem_firstOccurrences, ← h1, List.any_eq_true, List.mem_map]
        constructor
        · rintro ⟨u, hu, hh⟩; exact ⟨u, hu, (hits_iff_key _ _ _ hko u).mp hh⟩
        · rintro ⟨u, hu, hh⟩; exact ⟨u, hu, (hits_iff_key _ _ _ hko u).mpr hh⟩
      by_cases h : okey o ∈ ops.map okey
      · rw [if_pos (hmem.mpr h), if_pos h]
      · rw [if_neg (fun c => h (hmem.mp c)), if_neg h]; rfl
    · have hnd : ((journal ops).map ukey).Nodup := by rw [h1]; exact nodup_firstOccurrences _
      rw [mem_addUpdate_value _ _ _ hko _ hnd]
      intro u hu
      rw [List.map_append, List.map_singleton, lastValue_append_singleton]
      have hkey : ukey (⟨o.name, o.value, o.kind⟩ : Update V) = okey o := rfl
      split at hu
      · simp only [List.mem_map] at hu
        obtain ⟨w, hw, rfl⟩ := hu
        by_cases hc : ukey w = key o.name o.value o.kind
        · simp only [hc, if_true, hkey]
        · simp only [hc, if_false]
          have : ¬ okey o = ukey w := fun e => hc e.symm
          rw [if_neg this]
          exact h2 w hw
      · simp only [List.mem_append, List.mem_singleton] at hu
        rcases hu with hu | rfl
        · rename_i hnot
          have : ¬ okey o = ukey u := by
            intro e; apply hnot
            show okey o ∈ _
            rw [e]; exact List.mem_map_of_mem hu
          rw [if_neg this]
          exact h2 u hu
        · simp [hkey]

/-- C07, every edited key is present, with its last value. -/
theorem C07_every_edit_recorded (ops : List (Op V)) (hk : ∀ o ∈ ops, o.kind ≠ .invalidUpdate)
    (o : Op V) (ho : o ∈ ops) :
    ∃ u ∈ journal ops, identRec u = identOp o ∧
      lastValue (identOp o) (ops.map fun o => (identOp o, o.value)) = some u.value := by
  obtain ⟨h1, h2⟩ := C07_journal_is_last_write_wins ops hk
  have : identOp o ∈ (journal ops).map identRec := by
    rw [h1, mem_firstOccurrences]; exact List.mem_map_of_mem ho
  simp only [List.mem_map] at this
  obtain ⟨u, hu, he⟩ := this
  exact ⟨u, hu, he, he ▸ h2 u hu⟩

/-- C07, an edit never disturbs the records of other keys, and never reorders them. -/
theorem C07_edit_is_local (ops : List (Op V)) (o : Op V) (hko : o.kind ≠ .invalidUpdate) :
    (journal (ops ++ [o])).filter (fun u => identRec u ≠ identOp o) =
    (journal ops).filter (fun u => identRec u ≠ identOp o) := by
  rw [journal_append, mem_addUpdate_value _ _ _ hko _ (C07_no_duplicate_records ops)]
  have hid : ∀ u : Update V, identRec u = ukey u := fun _ => rfl
  have hio : identOp o = key o.name o.value o.kind := rfl
  split
  · rw [List.filter_map]
    have : ∀ j : List (Update V),
       (j.filter ((fun u => decide (identRec u ≠ identOp o)) ∘ fun u => if ukey u = key o.name o.value o.kind then ⟨o.name, o.value, o.kind⟩ else u)).map
        (fun u => if ukey u = key o.name o.value o.kind then (⟨o.name, o.value, o.kind⟩ : Update V) else u)
        = j.filter (fun u => decide (identRec u ≠ identOp o)) := by
      intro j
      induction j with
      | nil => rfl
      | cons u us ih =>
        have h0 : ukey (⟨o.name, o.value, o.kind⟩ : Update V) = key o.name o.value o.kind := rfl
        rw [List.filter_cons, List.filter_cons]
        by_cases hc : ukey u = key o.name o.value o.kind
        · rw [if_neg (by simp [hc, hid, hio, h0]), if_neg (by simp [hc, hid, hio])]
          exact ih
        · rw [if_pos (by simp [hc, hid, hio]), if_pos (by simp [hc, hid, hio]), List.map_cons, if_neg hc, ih]
    exact this _
  · rw [List.filter_append]
    have : identRec (⟨o.name, o.value, o.kind⟩ : Update V) = identOp o := rfl
    simp [this]

theorem lastValue_ops (ops : List (Op V)) (name : String) (hr : name ≠ "INSTRUCTION") (kd : UpdateType) :
    lastValue (name, kd, (none : Option V)) (ops.map fun o => (identOp o, o.value))
      = ((ops.reverse.find? (fun o => o.name == name && o.kind == kd)).map (·.value)) := by
  unfold lastValue
  rw [← List.map_reverse, List.find?_map, Option.map_map]
  have : ((fun p : (String × UpdateType × Option V) × V => decide (p.1 = (name, kd, none))) ∘ fun o : Op V => (identOp o, o.value))
      = (fun o => o.name == name && o.kind == kd) := by
    funext o
    simp only [Function.comp, identOp]
    apply Bool.eq_iff_iff.mpr
    simp only [beq_iff_eq, Prod.mk.injEq, Bool.and_eq_true, decide_eq_true_eq]
    constructor
    · rintro ⟨a, b, _⟩; exact ⟨a, b⟩
    · rintro ⟨a, b⟩; exact ⟨a, b, by simp [a, hr]⟩
  rw [this]; rfl

/-- C07, `updates_on(name)`: exactly the records whose name begins with `name`, in journal order. -/
theorem C07_updates_on (name : String) (j : List (Update V)) :
    (updatesOn name j).Sublist j ∧
    ∀ u, u ∈ updatesOn name j ↔ u ∈ j ∧ ∃ t, u.name.toList = name.toList ++ t := by
  refine ⟨List.filter_sublist, ?_⟩
  intro u
  unfold updatesOn
  rw [List.mem_filter, List.isPrefixOf_iff_prefix]
  constructor
  · rintro ⟨h, t, ht⟩; exact ⟨h, t, ht.symm⟩
  · rintro ⟨h, t, ht⟩; exact ⟨h, t, ht.symm⟩

/-- C07, `value(ref)` is the value of the last component-value edit of `ref`, `None` iff there was none.
(`"INSTRUCTION"` is the reserved record name of directives, no component is called like this.) -/
theorem C07_value_lookup (ops : List (Op V)) (hk : ∀ o ∈ ops, o.kind ≠ .invalidUpdate)
    (ref : String) (hr : ref ≠ "INSTRUCTION") :
    value ref (journal ops) =
      ((ops.reverse.find? (fun o => o.name == ref && o.kind == .updateComponentValue)).map (·.value)) := by
  obtain ⟨h1, h2⟩ := C07_journal_is_last_write_wins ops hk
  have hlast : lastValue (ref, UpdateType.updateComponentValue, (none : Option V)) (ops.map fun o => (identOp o, o.value))
      = ((ops.reverse.find? (fun o => o.name == ref && o.kind == .updateComponentValue)).map (·.value)) := by
    exact lastValue_ops ops _ hr _
  rw [← hlast]
  unfold value
  cases hf : (journal ops).find? (fun u => u.kind == .updateComponentValue && u.name == ref) with
  | some u =>
    have hp := List.find?_some hf
    simp only [Bool.and_eq_true, beq_iff_eq] at hp
    have := h2 u (List.mem_of_find?_eq_some hf)
    rw [show identRec u = (ref, UpdateType.updateComponentValue, (none : Option V)) by
      simp [identRec, hp.1, hp.2, hr]] at this
    rw [this]; rfl
  | none =>
    rw [List.find?_eq_none] at hf
    simp only [Option.map_none]
    symm
    unfold lastValue
    rw [Option.map_eq_none_iff, List.find?_eq_none]
    intro p hp
    simp only [List.mem_reverse, List.mem_map] at hp
    obtain ⟨o, ho, rfl⟩ := hp
    intro hc
    simp only [decide_eq_true_eq] at hc
    have : identOp o ∈ (journal ops).map identRec := by
      rw [h1, mem_firstOccurrences]; exact List.mem_map_of_mem ho
    rw [hc, List.mem_map] at this
    obtain ⟨u, hu, he⟩ := this
    simp only [identRec, Prod.mk.injEq] at he
    exact hf u hu (by simp [he.1, he.2.1])

theorem find_firstOccurrences {α : Type} [DecidableEq α] (p : α → Bool) (l : List α) :
    (firstOccurrences l).find? p = l.find? p := by
  induction l with
  | nil => rfl
  | cons a l ih =>
    simp only [firstOccurrences, List.find?_cons]
    cases hp : p a with
    | true => rfl
    | false =>
      simp only []
      rw [← ih, List.find?_filter]
      congr 1
      funext x
      by_cases hx : x = a
      · subst hx; simp [hp]
      · simp [hx]

/-- The edits of a parameter called `name`: it was added or given a value. -/
def setsParameter (name : String) (o : Op V) : Bool :=
  o.name == name && (o.kind == .updateParameter || o.kind == .addParameter)

/-- C07, `parameter(name)`, exactly: with `first` the first edit of that parameter, the answer is the value of
the last edit of the same kind as `first` (adding and updating are different kinds); `None` iff the parameter
was never edited. So the answer is the value of the last edit as long as the parameter was only added or only
updated; otherwise see `C07_parameter_lookup_stale`. -/
theorem C07_parameter_lookup (ops : List (Op V)) (hk : ∀ o ∈ ops, o.kind ≠ .invalidUpdate)
    (name : String) (hr : name ≠ "INSTRUCTION") :
    (∀ first, ops.find? (setsParameter name) = some first →
      parameter name (journal ops) =
        ((ops.reverse.find? (fun o => o.name == name && o.kind == first.kind)).map (·.value))) ∧
    (parameter name (journal ops) = none ↔ ∀ o ∈ ops, setsParameter name o = false) := by
  obtain ⟨h1, h2⟩ := C07_journal_is_last_write_wins ops hk
  let q : String × UpdateType × Option V → Bool := fun k =>
    k.1 == name && (k.2.1 == .updateParameter || k.2.1 == .addParameter)
  have hfind : ((journal ops).find? (fun u => (u.kind == .updateParameter || u.kind == .addParameter) && name == u.name)).map identRec
      = (ops.find? (setsParameter name)).map identOp := by
    have e1 : ((journal ops).map identRec).find? q = (ops.map identOp).find? q := by
      rw [h1, find_firstOccurrences]
    rw [List.find?_map, List.find?_map] at e1
    have e2 : (q ∘ identRec : Update V → Bool) = (fun u => (u.kind == .updateParameter || u.kind == .addParameter) && name == u.name) := by
      funext u
      apply Bool.eq_iff_iff.mpr
      simp only [q, Function.comp, identRec, Bool.and_eq_true, beq_iff_eq]
      exact ⟨fun h => ⟨h.2, h.1.symm⟩, fun h => ⟨h.2.symm, h.1⟩⟩
    have e3 : (q ∘ identOp : Op V → Bool) = setsParameter name := by funext o; rfl
    rw [e2, e3] at e1
    exact e1
  constructor
  · intro first hfirst
    rw [hfirst, Option.map_some, Option.map_eq_some_iff] at hfind
    obtain ⟨u, hu, he⟩ := hfind
    have hp := List.find?_some hfirst
    simp only [setsParameter, Bool.and_eq_true, beq_iff_eq] at hp
    have hid : identOp first = (name, first.kind, (none : Option V)) := by
      simp [identOp, hp.1, hr]
    have := h2 u (List.mem_of_find?_eq_some hu)
    rw [he, hid, lastValue_ops ops _ hr] at this
    unfold parameter
    rw [hu, this]; rfl
  · rw [show (∀ o ∈ ops, setsParameter name o = false) ↔ ops.find? (setsParameter name) = none by
      rw [List.find?_eq_none]; simp]
    unfold parameter
    rw [Option.map_eq_none_iff, ← Option.map_eq_none_iff (f := identRec), hfind, Option.map_eq_none_iff]

/-- C07 fails for `parameter(name)` on the unchanged code: a parameter first added (AddParameter) and then
set again (UpdateParameter, which is what `set_parameter` records the second time,
spice_subcircuit.py 640/648) still reports the *first* value. -/
theorem C07_parameter_lookup_stale :
    parameter "p" (journal [⟨"p", 1, .addParameter⟩, ⟨"p", 2, .updateParameter⟩] : List (Update Nat)) = some 1 := by
  decide

/-- Concrete non-trivial journal meeting the hypotheses above. -/
example : journal ([⟨"R1", 1, .updateComponentValue⟩, ⟨"INSTRUCTION", 7, .addInstruction⟩,
      ⟨"INSTRUCTION", 8, .addInstruction⟩, ⟨"R1", 2, .updateComponentValue⟩, ⟨"INSTRUCTION", 7, .addInstruction⟩] : List (Op Nat))
    = [⟨"R1", 2, .updateComponentValue⟩, ⟨"INSTRUCTION", 7, .addInstruction⟩, ⟨"INSTRUCTION", 8, .addInstruction⟩] := by
  decide

example : ∀ o ∈ ([⟨"R1", 1, .updateComponentValue⟩, ⟨"p", 7, .addParameter⟩] : List (Op Nat)), o.kind ≠ .invalidUpdate := by
  decide

/-! ### C12 -/

/-- What a condition value admits. -/
def Admits (c : CondValue V) (v : V) : Prop :=
  match c with | .one w => w = v | .many ws => v ∈ ws

theorem innerLoop_iff (n : String) (c : CondValue V) (j : List (Update V)) :
    innerLoop n c j = true ↔ ∃ u ∈ j, u.name = n ∧ Admits c u.value := by
  induction j with
  | nil => simp [innerLoop]
  | cons u us ih =>
    simp only [innerLoop, List.mem_cons, exists_eq_or_imp]
    have : condHit n c u = true ↔ u.name = n ∧ Admits c u.value := by
      unfold condHit Admits
      cases c <;> simp only [Bool.and_eq_true, beq_iff_eq, List.contains_eq_mem, decide_eq_true_eq, eq_comm (a := n)]
    split
    · rename_i h; simp [this.mp h]
    · rename_i h
      have hn : ¬ (u.name = n ∧ Admits c u.value) := fun hc => h (this.mpr hc)
      rw [ih]; simp only [hn, false_or]

/-- C12: with a dictionary of conditions, a task matches iff it has a non-empty snapshot of edits in which
every condition (name, value) is met by some record with that name and an admitted value. -/
theorem C12_match_iff_all_conditions_recorded {T : Type} (items : List (String × CondValue V)) (task : T)
    (edits : Option (List (Update V))) :
    matchConditions (Conditions.dict items) task edits = true ↔
      ∃ j, edits = some j ∧ j ≠ [] ∧ ∀ n c, (n, c) ∈ items → ∃ u ∈ j, u.name = n ∧ Admits c u.value := by
  have hloop : ∀ (j : List (Update V)) (items : List (String × CondValue V)), dictLoop j items = true ↔
      ∀ n c, (n, c) ∈ items → ∃ u ∈ j, u.name = n ∧ Admits c u.value := by
    intro j items
    induction items with
    | nil => simp [dictLoop]
    | cons p rest ih =>
      obtain ⟨n, c⟩ := p
      simp only [dictLoop]
      by_cases h : innerLoop n c j = true
      · simp only [h, if_true, ih, List.mem_cons, Prod.mk.injEq]
        constructor
        · rintro H n' c' (⟨rfl, rfl⟩ | hm)
          · exact (innerLoop_iff _ _ _).mp h
          · exact H n' c' hm
        · intro H n' c' hm; exact H n' c' (Or.inr hm)
      · simp only [h, if_false, Bool.false_eq_true, false_iff]
        intro H
        exact h ((innerLoop_iff _ _ _).mpr (H n c (by simp)))
  cases edits with
  | none => simp [matchConditions]
  | some j =>
    cases j with
    | nil => simp [matchConditions]
    | cons u us =>
      simp only [matchConditions, hloop, Option.some.injEq, exists_eq_left', ne_eq, reduceCtorEq,
        not_false_eq_true, true_and]

/-- C12: no filter accepts every task; a filter function decides, but only for tasks with a non-empty
snapshot; a task without recorded edits matches no filter. -/
theorem C12_filter_kinds {T : Type} (task : T) (edits : Option (List (Update V))) (f : T → Bool)
    (items : List (String × CondValue V)) :
    matchConditions (Conditions.noFilter : Conditions V T) task edits = true ∧
    (matchConditions (Conditions.func f) task edits = true ↔ (∃ u j, edits = some (u :: j)) ∧ f task = true) ∧
    ((edits = none ∨ edits = some []) → matchConditions (Conditions.dict items) task edits = false) := by
  refine ⟨rfl, ?_, ?_⟩
  · rcases edits with _ | _ | ⟨u, j⟩ <;> simp [matchConditions]
  · rintro (rfl | rfl) <;> rfl

/-- C12 combined with C07: the component-value conditions are decided by the *last* value recorded before the launch. -/
theorem C12_match_on_last_component_value {T : Type} (ops : List (Op V)) (task : T) (ref : String) (v : V)
    (hk : ∀ o ∈ ops, o.kind = .updateComponentValue) (hr : ref ≠ "INSTRUCTION") :
    matchConditions (Conditions.dict [(ref, CondValue.one v)]) task (some (journal ops)) = true ↔
      (ops.reverse.find? (fun o => o.name == ref)).map (·.value) = some v := by
  have hk' : ∀ o ∈ ops, o.kind ≠ .invalidUpdate := by intro o ho; rw [hk o ho]; decide
  obtain ⟨h1, h2⟩ := C07_journal_is_last_write_wins ops hk'
  have hv := C07_value_lookup ops hk' ref hr
  have hfe : ∀ (l : List (Op V)), (∀ o ∈ l, o.kind = .updateComponentValue) →
      l.find? (fun o => o.name == ref && o.kind == .updateComponentValue) = l.find? (fun o => o.name == ref) := by
    intro l hl
    induction l with
    | nil => rfl
    | cons a l ih =>
      simp only [List.find?_cons, hl a (by simp), beq_self_eq_true, Bool.and_true]
      rw [ih (fun o ho => hl o (by simp [ho]))]
  rw [hfe _ (by intro o ho; exact hk o (by simpa using ho))] at hv
  rw [← hv]
  have hukind : ∀ u ∈ journal ops, u.kind = .updateComponentValue := by
    intro u hu
    have : identRec u ∈ (journal ops).map identRec := List.mem_map_of_mem hu
    rw [h1, mem_firstOccurrences, List.mem_map] at this
    obtain ⟨o, ho, he⟩ := this
    simp only [identOp, identRec, Prod.mk.injEq] at he
    rw [← he.2.1]; exact hk o ho
  have hnd := C07_no_duplicate_records ops
  rw [C12_match_iff_all_conditions_recorded]
  simp only [Option.some.injEq, exists_eq_left', List.mem_singleton, Prod.mk.injEq, and_imp]
  constructor
  · rintro ⟨_, H⟩
    obtain ⟨u, hu, hun, hua⟩ := H ref _ rfl rfl
    simp only [Admits] at hua
    unfold value
    cases hf : (journal ops).find? (fun u => u.kind == .updateComponentValue && u.name == ref) with
    | none =>
      rw [List.find?_eq_none] at hf
      exact absurd (by simp [hukind u hu, hun]) (hf u hu)
    | some w =>
      have hp := List.find?_some hf
      simp only [Bool.and_eq_true, beq_iff_eq] at hp
      have hw := List.mem_of_find?_eq_some hf
      have e1 := h2 u hu
      have e2 := h2 w hw
      have : identRec u = identRec w := by simp [identRec, hun, hp.1, hp.2, hukind u hu, hr]
      rw [this, e2] at e1
      injection e1 with e1
      simp [e1, hua]
  · intro hval
    unfold value at hval
    rw [Option.map_eq_some_iff] at hval
    obtain ⟨u, hf, hvv⟩ := hval
    have hp := List.find?_some hf
    simp only [Bool.and_eq_true, beq_iff_eq] at hp
    have hu := List.mem_of_find?_eq_some hf
    refine ⟨List.ne_nil_of_mem hu, ?_⟩
    rintro n c rfl rfl
    exact ⟨u, hu, hp.2, hvv.symm⟩

example : matchConditions (T := Unit) (Conditions.dict [("R1", CondValue.one 2), ("R2", CondValue.many [5, 6])]) ()
    (some (journal [⟨"R1", 1, .updateComponentValue⟩, ⟨"R2", 6, .updateComponentValue⟩, ⟨"R1", 2, .updateComponentValue⟩])) = true := by
  decide
example : matchConditions (T := Unit) (Conditions.dict [("R1", CondValue.one 1), ("R2", CondValue.many [5, 6])]) ()
    (some (journal [⟨"R1", 1, .updateComponentValue⟩, ⟨"R2", 6, .updateComponentValue⟩, ⟨"R1", 2, .updateComponentValue⟩])) = false := by
  decide

end Props.Updates
