import Verif.Lemmas.SplitLine
import Mathlib.Data.List.Basic
/-
C22: split_line_into_values splits only at top-level separators, loses nothing, and rejects open brackets.
-/
namespace Props.SplitLine
open Model.SplitLine Spec.Grammar Lemmas.SplitLine

/-- C22: a non-empty line is accepted, with result `vs`, exactly when it is a line of the grammar denoting `vs`
(words, separators, nested bracket groups to any depth). Hence separators inside brackets never split a value, and
the call raises on everything outside the grammar. -/
theorem C22_split_is_the_grammar (l : List Char) (hl : l ≠ []) (vs : List Val) :
    split l = some vs ↔ Line none l vs := by
  constructor
  · intro h
    rcases splitFuel_sound _ _ _ h with ⟨rfl, _⟩ | ⟨_, h'⟩
    · exact absurd rfl hl
    · exact h'
  · intro h
    have := splitFuel_line (l.length + 1) (Nat.lt_succ_self _) h
    rw [if_neg hl] at this
    exact this

/-- C22: the recursion bound of the model is immaterial: any larger bound gives the same result. -/
theorem C22_fuel_irrelevant (l : List Char) (n : Nat) (hn : l.length < n) : splitFuel n l = split l := by
  by_cases hl : l = []
  · subst hl; cases n with
    | zero => omega
    | succ n => rfl
  · cases h : splitFuel n l with
    | some vs =>
      rcases splitFuel_sound _ _ _ h with ⟨rfl, _⟩ | ⟨_, h'⟩
      · exact absurd rfl hl
      · exact ((C22_split_is_the_grammar l hl vs).mpr h').symm
    | none =>
      cases h2 : split l with
      | none => rfl
      | some vs =>
        have h3 := (C22_split_is_the_grammar l hl vs).mp h2
        have := splitFuel_line n hn h3
        rw [if_neg hl, h] at this
        cases this

/-- All the texts of a list of values, in order, concatenated. -/
def texts : List Val → List Char
  | [] => []
  | .text s :: vs => s ++ texts vs
  | .missing :: vs => texts vs
  | .group ws :: vs => texts ws ++ texts vs

/-- Characters that are neither separators nor brackets. -/
def ordinary (c : Char) : Bool := !(" \t\r\n,;()[]{}".toList.contains c)

theorem ordinary_sep {c : Char} (h : Separator c) : ordinary c = false := by
  rcases h with (rfl | rfl | rfl | rfl) | (rfl | rfl) <;> rfl

theorem ordinary_pair {o c : Char} (h : Pair o c) : ordinary o = false ∧ ordinary c = false := by
  rcases h with ⟨rfl, rfl⟩ | ⟨rfl, rfl⟩ | ⟨rfl, rfl⟩ <;> exact ⟨rfl, rfl⟩

theorem line_texts {f l vs} (h : Line f l vs) : (texts vs).filter ordinary = l.filter ordinary := by
  induction h with
  | done => simp [texts]
  | blank hb _ ih => simp [ordinary_sep (.inl hb), ih]
  | comma hb _ ih => simp [texts, ordinary_sep (.inr hb), ih]
  | lastWord => simp [texts]
  | word _ hs _ ih => simp [texts, ordinary_sep hs, ih]
  | emptyGroup hp _ ih => simp [texts, ordinary_pair hp, ih]
  | group hp _ _ _ ih1 ih2 => simp [texts, ordinary_pair hp, ih1, ih2]

/-- C22 (lossless): whenever the call returns, the ordinary characters of the line are exactly those of the returned
texts, in the same order, whatever the nesting. -/
theorem C22_lossless (l : List Char) (vs : List Val) (h : split l = some vs) :
    (texts vs).filter ordinary = l.filter ordinary := by
  by_cases hl : l = []
  · subst hl
    simp [split, splitFuel] at h
    subst h; simp [texts]
  · exact line_texts ((C22_split_is_the_grammar l hl vs).mp h)

/-- `w` is one of the texts occurring in the values, at any depth. -/
inductive Occurs (w : List Char) : List Val → Prop
  | here {vs} : Occurs w (.text w :: vs)
  | inside {ws vs} : Occurs w ws → Occurs w (.group ws :: vs)
  | later {v vs} : Occurs w vs → Occurs w (v :: vs)

/-- C22: no returned text, at any depth, contains a separator or an opening bracket. -/
theorem C22_texts_are_atomic (l : List Char) (vs : List Val) (h : split l = some vs) (w : List Char)
    (hw : Occurs w vs) : ∀ c ∈ w, ¬ Separator c ∧ ¬ Opener c := by
  have key : ∀ {f l vs}, Line f l vs → Occurs w vs → ∀ c ∈ w, ¬ Separator c ∧ ¬ Opener c := by
    intro f l vs hL
    induction hL with
    | done => intro h; cases h
    | blank _ _ ih => exact ih
    | comma _ _ ih => intro h; cases h with | later h => exact ih h
    | lastWord hW =>
      intro h
      cases h with
      | here => exact fun c hc => ⟨(hW.2 c hc).1, (hW.2 c hc).2.1⟩
      | later h => cases h
    | word hW _ _ ih =>
      intro h
      cases h with
      | here => exact fun c hc => ⟨(hW.2 c hc).1, (hW.2 c hc).2.1⟩
      | later h => exact ih h
    | emptyGroup _ _ ih =>
      intro h
      cases h with
      | inside h => cases h with
        | here => simp
        | later h => cases h
      | later h => exact ih h
    | group _ _ _ _ ih1 ih2 =>
      intro h
      cases h with
      | inside h => exact ih1 h
      | later h => exact ih2 h
  by_cases hl : l = []
  · subst hl
    simp [split, splitFuel] at h
    subst h
    cases hw with
    | here => simp
    | later h => cases h
  · exact key ((C22_split_is_the_grammar l hl vs).mp h) hw

/-- C22: a line with more opening than closing brackets of one kind raises. -/
theorem C22_unclosed_raises (l : List Char) (o c : Char) (hp : Pair o c) (h : l.count c < l.count o) : split l = none := by
  cases hs : split l with
  | none => rfl
  | some vs =>
    exfalso
    have hl : l ≠ [] := by rintro rfl; simp at h
    have hL := (C22_split_is_the_grammar l hl vs).mp hs
    have key : ∀ {f l vs}, Line f l vs → l.count o ≤ l.count c := by
      intro f l vs hL
      have hoc : o ≠ c := by rcases hp with ⟨rfl, rfl⟩ | ⟨rfl, rfl⟩ | ⟨rfl, rfl⟩ <;> decide
      have hpair : ∀ {o' c' : Char}, Pair o' c' → o' ≠ c ∧ (o' = o ↔ c' = c) ∧ c' ≠ o := by
        intro o' c' h'
        rcases hp with ⟨rfl, rfl⟩ | ⟨rfl, rfl⟩ | ⟨rfl, rfl⟩ <;>
          rcases h' with ⟨rfl, rfl⟩ | ⟨rfl, rfl⟩ | ⟨rfl, rfl⟩ <;> decide
      have hsep : ∀ {s : Char}, Separator s → s ≠ o := fun hs e => sep_not_opener hs ⟨c, e ▸ hp⟩
      have hword : ∀ {f w}, Word f w → w.count o = 0 := by
        intro f w hw
        rw [List.count_eq_zero]
        exact fun hm => (hw.2 o hm).2.1 ⟨c, hp⟩
      induction hL with
      | done => simp
      | blank hb _ ih => rw [List.count_cons_of_ne (hsep (.inl hb))]; exact Nat.le_trans ih (List.count_le_count_cons)
      | comma hb _ ih => rw [List.count_cons_of_ne (hsep (.inr hb))]; exact Nat.le_trans ih (List.count_le_count_cons)
      | lastWord hw => rw [hword hw]; omega
      | word hw hs _ ih =>
        rw [List.count_append, List.count_append, hword hw, List.count_cons_of_ne (hsep hs)]
        rw [Nat.zero_add]
        exact Nat.le_trans (Nat.le_trans ih List.count_le_count_cons) (Nat.le_add_left _ _)
      | @emptyGroup f o' c' l vs hp' _ ih =>
        obtain ⟨h1, h2, h3⟩ := hpair hp'
        rw [List.count_cons, List.count_cons_of_ne h3, List.count_cons_of_ne h1, List.count_cons]
        by_cases he : o' = o
        · simp [he, h2.mp he]; omega
        · simp [he]; omega
      | @group f o' c' l vs l' vs' hp' _ _ _ ih1 ih2 =>
        obtain ⟨h1, h2, h3⟩ := hpair hp'
        rw [List.count_cons, List.count_cons_of_ne h1, List.count_append, List.count_append, List.count_cons_of_ne h3, List.count_cons]
        by_cases he : o' = o
        · simp [he, h2.mp he]; omega
        · simp [he]; omega
    have := key hL
    omega

/-- C22 (finding): text immediately followed by a bracketed part, such as `V(out)`, always raises although its
brackets are balanced, because the first character of the text, not the bracket, is dropped (line 125). -/
theorem C22_text_before_bracket_raises (w : List Char) (o c : Char) (rest : List Char) (hw : Word none w)
    (hp : Pair o c) : split (w ++ o :: rest) = none := by
  cases hs : split (w ++ o :: rest) with
  | none => rfl
  | some vs =>
    exfalso
    have hL := (C22_split_is_the_grammar _ (by simp) vs).mp hs
    generalize hx : w ++ o :: rest = x at hL
    have hop : Opener o := ⟨c, hp⟩
    have hcls : ∀ c0 l0, w ++ o :: rest = c0 :: l0 → ¬ Separator c0 ∧ ¬ Opener c0 := by
      intro c0 l0 h
      cases w with
      | nil => exact absurd rfl hw.1
      | cons d w => simp at h; exact h.1 ▸ ⟨(hw.2 d (by simp)).1, (hw.2 d (by simp)).2.1⟩
    have hword : ∀ w' : List Char, (∀ d ∈ w', ¬ Separator d ∧ ¬ Opener d) → ∀ t, w ++ o :: rest = w' ++ t →
        ∀ s t', t = s :: t' → Separator s → False := by
      intro w' hw' t h s t' ht hs
      subst ht
      rcases List.append_eq_append_iff.mp h with ⟨a, ha, hb⟩ | ⟨a, ha, hb⟩
      · cases a with
        | nil => simp at hb; exact sep_not_opener hs (hb.1 ▸ hop)
        | cons e a => simp at hb; exact (hw' e (by simp [ha])).2 (hb.1 ▸ hop)
      · cases a with
        | nil => simp at hb; exact sep_not_opener hs (hb.1 ▸ hop)
        | cons e a => simp at hb; exact (hw.2 e (by simp [ha])).1 (hb.1 ▸ hs)
    cases hL with
    | done => simp at hx
    | blank hb _ => exact (hcls _ _ hx).1 (.inl hb)
    | comma hb _ => exact (hcls _ _ hx).1 (.inr hb)
    | lastWord hw' => subst hx; exact (hw'.2 o (by simp)).2.1 hop
    | word hw' hsep _ => exact hword _ (fun d hd => ⟨(hw'.2 d hd).1, (hw'.2 d hd).2.1⟩) _ hx _ _ rfl hsep
    | emptyGroup hp' _ => exact (hcls _ _ hx).2 ⟨_, hp'⟩
    | group hp' _ _ _ => exact (hcls _ _ hx).2 ⟨_, hp'⟩

/-- C22 (finding): a comma directly after a bracketed value yields a spurious missing value. -/
theorem C22_comma_after_group_adds_missing :
    split "(1,2),3".toList = some [.group [.text ['1'], .text ['2']], .missing, .text ['3']] := by
  rfl

/-! Concrete cases. -/
example : split "1\t(2.0dB,90) {a (b c)}".toList =
    some [.text ['1'], .group [.text "2.0dB".toList, .text "90".toList],
      .group [.text ['a'], .group [.text ['b'], .text ['c']]]] := by rfl
example : split "V(out)".toList = none := by rfl
example : split "(1 2".toList = none := by rfl
example : Word none ['V'] ∧ Pair '(' ')' := by
  refine ⟨⟨by simp, ?_⟩, .inl ⟨rfl, rfl⟩⟩
  intro c hc
  simp at hc; subst hc
  refine ⟨?_, ?_, by simp⟩
  · simp [Separator, Blank, Comma]
  · rintro ⟨d, hd⟩; simp [Pair] at hd

end Props.SplitLine
