import Verif.Props.Netlist
import Verif.Model.CompOps
/-
C29 for the instructions of a sub-circuit.
-/
namespace Props.SubInstr
open Model.CompOps (Sub subAddInstruction subRemoveInstruction subRemoveX)
open Model.Netlist Model.PyStr Props.Netlist
open Model.Updates (UpdateType)

/-- C29: on a sub-circuit remove_instruction takes out the first element with this text and nothing else, marks the sub-circuit as
modified and records the removal; if there is none it returns False and changes nothing. -/
theorem C29_sub_remove_first (c : Sub) (s : Str) (hp : c.perm ≠ .deny) (hn : ∀ e ∈ c.items, e.obj ≠ some none) :
    ((∀ t ∈ lines c.items, strip t ≠ strip s) ∧ subRemoveInstruction c s = .ok (c, false)) ∨
    (∃ (c' : Sub) (a b : List Elem) (e : Elem) (t : Str), c.items = a ++ e :: b ∧ e.obj = some (some t) ∧ strip t = strip s ∧
      (∀ u ∈ lines a, strip u ≠ strip s) ∧ subRemoveInstruction c s = .ok (c', true) ∧ c'.items = a ++ b ∧ c'.modified = true ∧
      (c.perm = .inform → c'.calls.length = c.calls.length + 1)) := by
  obtain ⟨r, hr⟩ := findText_spec s c.items hn
  unfold subRemoveInstruction
  rw [if_neg hp, hr]
  cases r with
  | none => exact Or.inl ⟨findText_none _ _ hr, rfl⟩
  | some i =>
    obtain ⟨a, e, b, t, h1, hl, ho, ht, hz⟩ := findText_some _ _ _ hr
    refine Or.inr ⟨_, a, b, e, t, h1, ho, ht, hz, rfl, ?_, rfl, ?_⟩
    · simp only [Sub.record, h1, ← hl]
      clear * -
      induction a with
      | nil => rfl
      | cons x a ih => simp [ih]
    · intro h; simp [Sub.record, h]

theorem fold_record (l : List Str) (c : Sub) (k : UpdateType) :
    (l.foldl (fun e t => e.record (strip t) k) c).items = c.items := by
  induction l generalizing c with
  | nil => rfl
  | cons s l ih => rw [List.foldl_cons, ih]; rfl

/-- C29: on a sub-circuit remove_Xinstruction takes out exactly the elements whose text matches, and returns whether there was one. -/
theorem C29_sub_removeX (c : Sub) (p : Str → Bool) (hp : c.perm ≠ .deny) :
    (subRemoveX c p).1.items = c.items.filter (fun e => !matched p e) ∧
    ((subRemoveX c p).2 = true ↔ ∃ e ∈ c.items, matched p e = true) := by
  have h2 := (dropMatching_eq p c.items).2
  unfold subRemoveX
  rw [if_neg hp]
  simp only
  refine ⟨by rw [fold_record]; exact (dropMatching_eq p _).1, ?_⟩
  rw [h2]
  simp only [Bool.not_eq_true', List.isEmpty_eq_false_iff]
  constructor
  · intro hne
    obtain ⟨s, hs⟩ := List.exists_mem_of_ne_nil _ hne
    obtain ⟨e, he, _⟩ := List.mem_filterMap.mp hs
    obtain ⟨h3, h4⟩ := List.mem_filter.mp he
    exact ⟨e, h3, h4⟩
  · rintro ⟨e, he, hm⟩ hnil
    cases hs : e.str with
    | none => simp [matched, hs] at hm
    | some s =>
      have : s ∈ (c.items.filter (matched p)).filterMap Elem.str :=
        List.mem_filterMap.mpr ⟨e, List.mem_filter.mpr ⟨he, hm⟩, hs⟩
      rw [hnil] at this
      simp at this

/-- C29: on a sub-circuit add_instruction puts a new instruction that is neither an analysis nor a .PARAM before the last line (the .ENDS)
and moves nothing else; an instruction that is there already is not added again; analyses and .PARAM are refused. -/
theorem C29_sub_add (c : Sub) (s cmd : Str) (hc : lineCommand s = some cmd) (hn : ∀ e ∈ c.items, e.obj ≠ some none) :
    (isUnique cmd = some true → ∃ e, subAddInstruction c s = .error e) ∧
    (cmd = ".PARAM".toList → ∃ e, subAddInstruction c s = .error e) ∧
    (isUnique cmd = some false → cmd ≠ ".PARAM".toList → (∃ t ∈ lines c.items, strip t = strip s) → subAddInstruction c s = .ok c) ∧
    (isUnique cmd = some false → cmd ≠ ".PARAM".toList → (∀ t ∈ lines c.items, strip t ≠ strip s) →
      ∀ (a : List Elem) (e : Elem), c.items = a ++ [e] →
      subAddInstruction c s = .ok { c with items := a ++ [classFor (withNewline s) cmd, e] }) := by
  obtain ⟨r, hr⟩ := findText_spec s c.items hn
  unfold subAddInstruction
  rw [hc]
  simp only
  refine ⟨?_, ?_, ?_, ?_⟩
  · intro h; rw [h]; exact ⟨_, rfl⟩
  · intro h
    cases hu : isUnique cmd with
    | none => exact ⟨_, rfl⟩
    | some b =>
      cases b with
      | true => exact ⟨_, rfl⟩
      | false => simp only; rw [if_pos h]; exact ⟨_, rfl⟩
  · rintro hu hne ⟨t, ht, hs⟩
    rw [hu]
    simp only
    rw [if_neg hne, hr]
    cases r with
    | none => exact absurd hs (findText_none _ _ hr t ht)
    | some i => rfl
  · intro hu hne hz a e he
    rw [hu]
    simp only
    rw [if_neg hne, hr]
    cases r with
    | some i =>
      obtain ⟨a', e', b', t, h1, hl, ho, ht, hz'⟩ := findText_some _ _ _ hr
      exact absurd ht (hz t (by rw [h1]; simp [lines, ho]))
    | none =>
      simp only [he, insertAt]
      congr 2
      simp

example : subRemoveInstruction ⟨.inform, [.prim ".subckt a 1 2\n".toList, .prim ".model d d\n".toList, .prim ".ends\n".toList], false, []⟩ ".model d d".toList
    = .ok (⟨.inform, [.prim ".subckt a 1 2\n".toList, .prim ".ends\n".toList], true, [("INSTRUCTION".toList, ".model d d".toList, .deleteInstruction)]⟩, true) := by
  decide +kernel

end Props.SubInstr
