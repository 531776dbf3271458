import Verif.Model.Netlist
import Verif.Lemmas.PyStr
import Verif.Spec.Directive
import Mathlib.Tactic.SplitIfs
import Mathlib.Tactic.Tauto
/-
Helper lemmas for Props.Netlist.
-/
namespace Lemmas.Netlist
open Model.Netlist Model.PyStr Spec.Directive Lemmas.PyStr

theorem upChar_small (c : Char) (h : c.toNat < 128) : upChar c = c.toUpper := by
  unfold upChar
  rw [if_neg, if_neg, if_neg] <;> (rintro rfl; revert h; decide)

theorem upChar_big (c : Char) (h : 128 ≤ c.toNat) : 128 ≤ (upChar c).toNat := by
  unfold upChar
  split_ifs
  · decide
  · decide
  · decide
  · rw [toUpper_big c h]; exact h

theorem upChar_idem (c : Char) : upChar (upChar c) = upChar c := by
  by_cases h : c.toNat < 128
  · rw [upChar_small c h, upChar_small _ (toUpper_small c h)]
    exact ascii_ind (P := fun c => c.toUpper.toUpper = c.toUpper) (by decide) c h
  · have h' : 128 ≤ c.toNat := by omega
    unfold upChar
    split_ifs <;> (try rfl) <;> (try (rename_i h; revert h; decide)) <;> (try simp_all [toUpper_big])

theorem upChar_endsWord (c : Char) (h : endsWord c = false) : endsWord (upChar c) = false := by
  by_cases hc : c.toNat < 128
  · rw [upChar_small c hc]
    revert h
    exact ascii_ind (P := fun c => endsWord c = false → endsWord c.toUpper = false) (by decide) c hc
  · have := upChar_big c (by omega)
    by_contra hh
    simp only [Bool.not_eq_false] at hh
    unfold endsWord at hh
    simp only [Bool.or_eq_true, decide_eq_true_eq] at hh
    rcases hh with ((hh | hh) | hh) | hh <;> (rw [hh] at this; revert this; decide)

theorem upChar_dot (c : Char) (h : upChar c = '.') : c = '.' := by
  by_cases hc : c.toNat < 128
  · rw [upChar_small c hc] at h
    revert h
    exact ascii_ind (P := fun c => c.toUpper = '.' → c = '.') (by decide) c hc
  · have := upChar_big c (by omega)
    rw [h] at this; exact absurd this (by decide)

theorem upChar_upper (c d : Char) (hd : d.toNat < 128) : upChar c = d ↔ c.toUpper = d := by
  by_cases hc : c.toNat < 128
  · rw [upChar_small c hc]
  · have h1 := upChar_big c (by omega)
    have h2 := toUpper_big c (by omega)
    constructor
    · rintro rfl; omega
    · rintro rfl; rw [h2] at hd; omega

theorem map_upChar_upper : ∀ (w a : List Char), (∀ d ∈ a, d.toNat < 128) → (w.map upChar = a ↔ w.map Char.toUpper = a) := by
  intro w
  induction w with
  | nil => intro a _; simp
  | cons c w ih =>
    intro a ha
    cases a with
    | nil => simp
    | cons d a =>
      simp only [List.map_cons, List.cons.injEq]
      rw [upChar_upper c d (ha d (by simp)), ih a (fun x hx => ha x (by simp [hx]))]

theorem lineCommand_skip : ∀ (b s : Str), (∀ c ∈ b, c = ' ' ∨ c = '\t') → lineCommand (b ++ s) = lineCommand s := by
  intro b
  induction b with
  | nil => intro s _; rfl
  | cons c b ih =>
    intro s h
    have hb : isBlank c = true := by
      rcases h c (by simp) with rfl | rfl <;> decide
    rw [List.cons_append]
    show (if isBlank c then lineCommand (b ++ s) else _) = _
    rw [if_pos hb]
    exact ih s (fun d hd => h d (by simp [hd]))

theorem lineCommand_dot (cs : Str) : lineCommand ('.' :: cs) = some (('.' :: cs.takeWhile (fun d => !endsWord d)).map upChar) := by
  rfl

theorem tw_mem {α : Type} (f : α → Bool) : ∀ (l : List α) (x : α), x ∈ l.takeWhile f → f x = true := by
  intro l
  induction l with
  | nil => simp
  | cons y l ih =>
    intro x hx
    rw [List.takeWhile_cons] at hx
    split at hx
    · rcases List.mem_cons.mp hx with rfl | hx
      · assumption
      · exact ih x hx
    · simp at hx

theorem dw_head {α : Type} (f : α → Bool) : ∀ (l : List α) (x : α) (t : List α), l.dropWhile f = x :: t → f x = false := by
  intro l
  induction l with
  | nil => simp
  | cons y l ih =>
    intro x t h
    rw [List.dropWhile_cons] at h
    split at h
    · exact ih x t h
    · simp only [List.cons.injEq] at h
      rw [← h.1]
      simpa using ‹¬f y = true›

theorem takeWhile_word (w r : Str) (hw : ∀ x ∈ w, endsWord x = false) (hr : r = [] ∨ ∃ x r', r = x :: r' ∧ endsWord x = true) :
    (w ++ r).takeWhile (fun d => !endsWord d) = w := by
  induction w with
  | nil =>
    rcases hr with rfl | ⟨x, r', rfl, hx⟩
    · rfl
    · simp [hx]
  | cons c w ih =>
    rw [List.cons_append, List.takeWhile_cons, if_pos (by simp [hw c (by simp)]), ih (fun x hx => hw x (by simp [hx]))]

theorem lineCommand_directive (b w r : Str) (hb : ∀ x ∈ b, x = ' ' ∨ x = '\t') (hw : ∀ x ∈ w, endsWord x = false)
    (hr : r = [] ∨ ∃ x r', r = x :: r' ∧ endsWord x = true) : lineCommand (b ++ '.' :: (w ++ r)) = some (('.' :: w).map upChar) := by
  rw [lineCommand_skip b _ hb, lineCommand_dot, takeWhile_word w r hw hr]

/-- The command of a line, if it is a directive, is its first word in capitals. -/
theorem lineCommand_cases (s : Str) : ∀ c, lineCommand s = some c →
    (∃ b w r, s = b ++ '.' :: (w ++ r) ∧ (∀ x ∈ b, x = ' ' ∨ x = '\t') ∧ (∀ x ∈ w, endsWord x = false) ∧
      (r = [] ∨ ∃ x r', r = x :: r' ∧ endsWord x = true) ∧ c = ('.' :: w).map upChar) ∨
    (c.length = 1 ∧ c ≠ ['.'] ∧ ∃ b x r, s = b ++ x :: r ∧ (∀ y ∈ b, y = ' ' ∨ y = '\t') ∧ isBlank x = false ∧
      ((c = [upChar x] ∧ upChar x ∈ validPrefixes) ∨ (c = ['+'] ∧ x = '+') ∨ (c = ['*'] ∧ x ∈ "#;*\n\r".toList))) := by
  induction s with
  | nil => intro c h; simp [lineCommand] at h
  | cons x s ih =>
    intro c h
    unfold lineCommand at h
    split_ifs at h with h1 h2 h3 h4 h5
    · have hx : x = ' ' ∨ x = '\t' := by simpa [isBlank] using h1
      rcases ih c h with ⟨b, w, r, rfl, hb, rest⟩ | ⟨hl, hne, b, y, r, rfl, hb, rest⟩
      · left
        refine ⟨x :: b, w, r, rfl, ?_, rest⟩
        intro y hy
        rcases List.mem_cons.mp hy with rfl | hy
        · exact hx
        · exact hb y hy
      · right
        refine ⟨hl, hne, x :: b, y, r, rfl, ?_, rest⟩
        intro y hy
        rcases List.mem_cons.mp hy with rfl | hy
        · exact hx
        · exact hb y hy
    · right
      simp only [Option.some.injEq] at h
      subst h
      refine ⟨rfl, ?_, [], x, s, rfl, by simp, by simpa using h1, Or.inl ⟨rfl, h2⟩⟩
      intro he
      simp only [List.cons.injEq, and_true] at he
      rw [he] at h2
      revert h2; decide
    · right
      simp only [Option.some.injEq] at h
      subst h
      exact ⟨rfl, by decide, [], x, s, rfl, by simp, by simpa using h1, Or.inr (Or.inl ⟨rfl, h3⟩)⟩
    · right
      simp only [Option.some.injEq] at h
      subst h
      exact ⟨rfl, by decide, [], x, s, rfl, by simp, by simpa using h1, Or.inr (Or.inr ⟨rfl, h4⟩)⟩
    · left
      simp only [Option.some.injEq] at h
      subst h5
      refine ⟨[], s.takeWhile (fun d => !endsWord d), s.dropWhile (fun d => !endsWord d), ?_, by simp, ?_, ?_, h.symm⟩
      · simp [List.takeWhile_append_dropWhile]
      · intro y hy
        simpa using tw_mem _ s y hy
      · cases hd : s.dropWhile (fun d => !endsWord d) with
        | nil => left; rfl
        | cons y t =>
          right
          refine ⟨y, t, rfl, ?_⟩
          simpa using dw_head _ s y t hd

theorem map_upChar_idem (w : Str) : (w.map upChar).map upChar = w.map upChar := by
  rw [List.map_map]
  exact List.map_congr_left (fun c _ => upChar_idem c)

/-- get_line_command applied to a command gives the command itself. -/
theorem lineCommand_command (s c : Str) (h : lineCommand s = some c) : lineCommand c = some c := by
  rcases lineCommand_cases s c h with ⟨b, w, r, _, _, hw, _, rfl⟩ | ⟨_, _, b, x, r, _, _, hx, hc⟩
  · have := lineCommand_directive [] (w.map upChar) [] (by simp) (by
      intro x hx
      obtain ⟨y, hy, rfl⟩ := List.mem_map.mp hx
      exact upChar_endsWord y (hw y hy)) (Or.inl rfl)
    simp only [List.nil_append, List.append_nil] at this
    have hd : upChar '.' = '.' := by decide
    rw [List.map_cons, hd, this, List.map_cons, hd, map_upChar_idem]
  · rcases hc with ⟨rfl, hv⟩ | ⟨rfl, _⟩ | ⟨rfl, _⟩
    · have hnb : isBlank (upChar x) = false := by
        by_contra hh
        simp only [Bool.not_eq_false] at hh
        unfold isBlank at hh
        simp only [Bool.or_eq_true, decide_eq_true_eq] at hh
        rcases hh with hh | hh <;> (rw [hh] at hv; revert hv; decide)
      unfold lineCommand
      rw [if_neg (by simp [hnb]), upChar_idem, if_pos hv]
    · decide
    · decide

theorem isUnique_command (s c : Str) (h : lineCommand s = some c) : isUnique c = some (uniqueCommands.contains c) := by
  unfold isUnique
  rw [lineCommand_command s c h]
  rfl

theorem unique_ascii : ∀ u ∈ uniqueCommands, (∀ d ∈ u, d.toNat < 128) ∧ (∀ d ∈ u, endsWord d = false) ∧ u.head? = some '.' := by
  decide

theorem unique_spec (c : Str) : c ∈ uniqueCommands ↔ ∃ a ∈ analyses, c = a.toList := by
  simp [uniqueCommands, analyses]

/-- The code recognises exactly the analysis directives. -/
theorem isUnique_iff (s : Str) : isUnique s = some true ↔ IsAnalysis s := by
  constructor
  · intro h
    unfold isUnique at h
    cases hc : lineCommand s with
    | none => rw [hc] at h; simp at h
    | some c =>
      rw [hc] at h
      simp only [Option.map_some, Option.some.injEq, List.contains_iff_mem] at h
      rcases lineCommand_cases s c hc with ⟨b, w, r, hs, hb, hw, hr, rfl⟩ | ⟨hl, _, _⟩
      · obtain ⟨a, ha, hca⟩ := (unique_spec _).mp h
        refine ⟨b, '.' :: w, r, ?_, hb, ⟨a, ha, ?_⟩, ?_⟩
        · rw [hs]; simp
        · exact (map_upChar_upper _ _ (by rw [← hca]; exact (unique_ascii _ h).1)).mp hca
        · rcases hr with rfl | ⟨x, r', rfl, hx⟩
          · left; rfl
          · right
            refine ⟨x, r', rfl, ?_⟩
            simpa [endsWord, or_assoc] using hx
      · exfalso
        revert hl
        have : ∀ u ∈ uniqueCommands, u.length ≠ 1 := by decide
        exact this c h
  · rintro ⟨b, w, r, rfl, hb, ⟨a, ha, hwa⟩, hr⟩
    have hmem : a.toList ∈ uniqueCommands := (unique_spec _).mpr ⟨a, ha, rfl⟩
    obtain ⟨h1, h2, h3⟩ := unique_ascii _ hmem
    have hup : w.map upChar = a.toList := (map_upChar_upper _ _ h1).mpr hwa
    cases w with
    | nil => rw [← hup] at h3; simp at h3
    | cons c w =>
      rw [← hup, List.map_cons] at h3
      simp only [List.head?_cons, Option.some.injEq] at h3
      have hdot := upChar_dot c h3
      subst hdot
      have hr' : r = [] ∨ ∃ x r', r = x :: r' ∧ endsWord x = true := by
        rcases hr with rfl | ⟨x, r', rfl, hx⟩
        · left; rfl
        · right
          exact ⟨x, r', rfl, by simpa [endsWord, or_assoc] using hx⟩
      have hw' : ∀ x ∈ w, endsWord x = false := by
        intro x hx
        by_contra hh
        simp only [Bool.not_eq_false] at hh
        have h4 : upChar x ∈ a.toList := by rw [← hup]; exact List.mem_map.mpr ⟨x, by simp [hx], rfl⟩
        have h5 := h2 _ h4
        have h6 : upChar x = x := by
          simp only [endsWord, Bool.or_eq_true, decide_eq_true_eq] at hh
          rcases hh with ((rfl | rfl) | rfl) | rfl <;> decide
        rw [h6, hh] at h5
        exact absurd h5 (by decide)
      have := lineCommand_directive b w r hb hw' hr'
      unfold isUnique
      rw [List.append_assoc, List.cons_append, this, Option.map_some, hup]
      simp [hmem]

end Lemmas.Netlist
