import Verif.Spec.Grammar
import Mathlib.Tactic.SplitIfs
import Mathlib.Tactic.Push
import Mathlib.Logic.Basic
namespace Lemmas.SplitLine
open Model.SplitLine Spec.Grammar

theorem closer_some {o c : Char} : closer o = some c ↔ Pair o c := by
  unfold closer Pair
  split_ifs with h1 h2 h3
  · subst h1; simp [eq_comm]
  · subst h2; simp [eq_comm]
  · subst h3; simp [eq_comm]
  · simp [h1, h2, h3]

theorem closer_none {o : Char} : closer o = none ↔ ¬ Opener o := by
  unfold Opener
  rw [← not_iff_not, not_not, Option.eq_none_iff_forall_ne_some]
  push Not
  exact ⟨fun ⟨c, h⟩ => ⟨c, closer_some.mp h⟩, fun ⟨c, h⟩ => ⟨c, closer_some.mpr h⟩⟩

theorem isBlank_iff {c : Char} : isBlank c = true ↔ Blank c := by simp [isBlank, Blank, or_assoc]
theorem isComma_iff {c : Char} : isComma c = true ↔ Comma c := by simp [isComma, Comma]

theorem pair_close_not_open {o c : Char} (h : Pair o c) : ¬ Opener c := by
  rintro ⟨d, hd⟩
  rcases h with ⟨_, rfl⟩ | ⟨_, rfl⟩ | ⟨_, rfl⟩ <;> simp [Pair] at hd

theorem pair_unique {o c d : Char} (h : Pair o c) (h' : Pair o d) : c = d := by
  have := closer_some.mpr h; rw [closer_some.mpr h'] at this; exact (Option.some.inj this).symm

theorem sep_not_opener {c : Char} (h : Separator c) : ¬ Opener c := by
  rintro ⟨d, hd⟩
  rcases h with (rfl | rfl | rfl | rfl) | (rfl | rfl) <;> simp [Pair] at hd

theorem sep_not_closer {c o : Char} (h : Separator c) : ¬ Pair o c := by
  intro hd
  rcases h with (rfl | rfl | rfl | rfl) | (rfl | rfl) <;> simp [Pair] at hd

theorem comma_not_blank {c : Char} (h : Comma c) : ¬ Blank c := by
  rcases h with rfl | rfl <;> simp [Blank]

/-- `l` is balanced and does not contain an unmatched `f`. -/
inductive Bal : Char → List Char → Prop
  | nil {f} : Bal f []
  | char {f c l} : ¬ Opener c → c ≠ f → Bal f l → Bal f (c :: l)
  | group {f o c l l'} : Pair o c → Bal c l → Bal f l' → Bal f (o :: (l ++ c :: l'))

theorem Bal.word {f : Char} {w l : List Char} (hw : ∀ c ∈ w, ¬ Opener c ∧ c ≠ f) (h : Bal f l) : Bal f (w ++ l) := by
  induction w with
  | nil => exact h
  | cons c w ih => exact .char (hw c (by simp)).1 (hw c (by simp)).2 (ih (fun d hd => hw d (by simp [hd])))

theorem line_bal {f l vs} (h : Line f l vs) : ∀ c, f = some c → (∃ o, Pair o c) → Bal c l := by
  induction h with
  | done => intro c _ _; exact .nil
  | blank hb _ ih =>
    rintro d hd ⟨o, ho⟩
    exact .char (sep_not_opener (.inl hb)) (by rintro rfl; exact sep_not_closer (.inl hb) ho) (ih d hd ⟨o, ho⟩)
  | comma hb _ ih =>
    rintro d hd ⟨o, ho⟩
    exact .char (sep_not_opener (.inr hb)) (by rintro rfl; exact sep_not_closer (.inr hb) ho) (ih d hd ⟨o, ho⟩)
  | lastWord hw =>
    rintro d rfl _
    have := Bal.word (f := d) (l := []) (fun c hc => ⟨(hw.2 c hc).2.1, fun h => (hw.2 c hc).2.2 (by rw [h])⟩) .nil
    simpa using this
  | word hw hs _ ih =>
    rintro d rfl ⟨o, ho⟩
    refine Bal.word (fun c hc => ⟨(hw.2 c hc).2.1, fun h => (hw.2 c hc).2.2 (by rw [h])⟩) ?_
    exact .char (sep_not_opener hs) (by rintro rfl; exact sep_not_closer hs ho) (ih d rfl ⟨o, ho⟩)
  | emptyGroup hp _ ih =>
    rintro d hd ho
    exact .group (l := []) hp .nil (ih d hd ho)
  | group hp _ _ _ ih1 ih2 =>
    rintro d hd ho
    exact .group hp (ih1 _ rfl ⟨_, hp⟩) (ih2 d hd ho)

theorem bal_unique {f : Char} (hf : ¬ Opener f) {l : List Char} (h : Bal f l) : ∀ {m x y : List Char}, Bal f m →
    l ++ f :: x = m ++ f :: y → l = m ∧ x = y := by
  induction h with
  | nil =>
    intro m x y hm he
    cases hm with
    | nil => simpa using he
    | char h1 h2 _ => simp at he; exact absurd he.1.symm h2
    | group hp _ _ => simp at he; exact absurd ⟨_, he.1 ▸ hp⟩ hf
  | char h1 h2 _ ih =>
    intro m x y hm he
    cases hm with
    | nil => simp at he; exact absurd he.1 h2
    | char h1' h2' hm' =>
      simp at he
      obtain ⟨rfl, he⟩ := he
      obtain ⟨rfl, rfl⟩ := ih hf hm' he
      exact ⟨rfl, rfl⟩
    | group hp _ _ => simp at he; exact absurd ⟨_, he.1 ▸ hp⟩ h1
  | group hp _ _ ih1 ih2 =>
    intro m x y hm he
    cases hm with
    | nil => simp at he; exact absurd ⟨_, he.1 ▸ hp⟩ hf
    | char h1' h2' hm' => simp at he; exact absurd ⟨_, he.1 ▸ hp⟩ h1'
    | group hp' hm1 hm2 =>
      simp only [List.cons_append, List.append_assoc, List.cons.injEq] at he
      obtain ⟨rfl, he⟩ := he
      obtain rfl := pair_unique hp hp'
      obtain ⟨rfl, he2⟩ := ih1 (pair_close_not_open hp) hm1 he
      obtain ⟨rfl, rfl⟩ := ih2 hf hm2 he2
      exact ⟨rfl, rfl⟩

variable {inner : List Char → Option (List Val)}

theorem loop_bal {f : Char} {l : List Char} (h : Bal f l) : ∀ (below cur : List Char) (vals rest),
    loop inner (f :: below) cur vals (l ++ rest) = loop inner (f :: below) (cur ++ l) vals rest := by
  induction h with
  | nil => simp
  | char h1 h2 _ ih =>
    intro below cur vals rest
    rw [List.cons_append, loop, closer_none.mpr h1]
    simp only [h2, if_false]
    rw [ih]; simp
  | @group f o c l l' hp _ _ ih1 ih2 =>
    intro below cur vals rest
    rw [List.cons_append, loop, closer_some.mpr hp]
    simp only [List.append_assoc]
    rw [ih1, List.cons_append, loop, closer_none.mpr (pair_close_not_open hp)]
    simp only [if_true, reduceCtorEq, if_false]
    rw [ih2]; simp

theorem loop_find : ∀ (n : Nat) (s : List Char), s.length ≤ n → ∀ (f : Char) (below cur : List Char) (vals r),
    loop inner (f :: below) cur vals s = some r → ∃ l rest, s = l ++ f :: rest ∧ Bal f l := by
  intro n
  induction n with
  | zero =>
    intro s hs f below cur vals r h
    cases s with
    | nil => simp [loop] at h
    | cons => simp at hs
  | succ n ih =>
    intro s hs f below cur vals r h
    cases s with
    | nil => simp [loop] at h
    | cons c s =>
      simp at hs
      by_cases ho : Opener c
      · obtain ⟨d, hd⟩ := ho
        rw [loop, closer_some.mpr hd] at h
        obtain ⟨l1, r1, rfl, hb1⟩ := ih s hs _ _ _ _ _ h
        simp only [loop_bal hb1] at h
        rw [loop, closer_none.mpr (pair_close_not_open hd)] at h
        simp only [if_true, reduceCtorEq, if_false] at h
        obtain ⟨l2, r2, rfl, hb2⟩ := ih r1 (by simp at hs; omega) _ _ _ _ _ h
        exact ⟨c :: (l1 ++ d :: l2), r2, by simp, .group hd hb1 hb2⟩
      · by_cases hc : c = f
        · exact ⟨[], s, by simp [hc], .nil⟩
        · rw [loop, closer_none.mpr ho] at h
          simp only [hc, if_false] at h
          obtain ⟨l, rest, rfl, hb⟩ := ih s hs _ _ _ _ _ h
          exact ⟨c :: l, rest, by simp, .char ho hc hb⟩

/-- From the opening bracket to the matching closing one. -/
theorem loop_group {o c : Char} (hp : Pair o c) {l : List Char} (hb : Bal c l) (cur : List Char) (vals rest) :
    loop inner [] cur vals (o :: (l ++ c :: rest)) =
      match inner (cur ++ o :: l).tail with
      | none => none
      | some vs => loop inner [] [] (vals ++ [.group vs]) rest := by
  rw [loop, closer_some.mpr hp]
  simp only []
  rw [loop_bal hb, loop, closer_none.mpr (pair_close_not_open hp)]
  simp only [if_true, List.append_assoc, List.singleton_append]
  rfl

theorem loop_word {w : List Char} (hw : ∀ c ∈ w, ¬ Separator c ∧ ¬ Opener c) : ∀ (cur : List Char) (vals rest),
    loop inner [] cur vals (w ++ rest) = loop inner [] (cur ++ w) vals rest := by
  induction w with
  | nil => simp
  | cons c w ih =>
    intro cur vals rest
    obtain ⟨h1, h2⟩ := hw c (by simp)
    have hb : isBlank c = false := by rw [Bool.eq_false_iff]; exact fun h => h1 (.inl (isBlank_iff.mp h))
    have hc : isComma c = false := by rw [Bool.eq_false_iff]; exact fun h => h1 (.inr (isComma_iff.mp h))
    rw [List.cons_append, loop, closer_none.mpr h2]
    simp only [hb, hc]
    rw [if_neg (by simp), if_neg (by simp), ih (fun d hd => hw d (by simp [hd]))]; simp

/-- Completeness of the loop for lines of the grammar. -/
theorem loop_line {f l vs} (h : Line f l vs)
    (hin : ∀ f' l' vs', l'.length < l.length → Line f' l' vs' → inner l' = if l' = [] then some [.text []] else some vs') :
    ∀ vals, loop inner [] [] vals l = some (vals ++ vs) := by
  induction h with
  | done => intro vals; simp [loop]
  | @blank f c l vs hb _ ih =>
    intro vals
    rw [loop, closer_none.mpr (sep_not_opener (.inl hb))]
    simp only [isBlank_iff.mpr hb, if_true]
    rw [ih (fun f' l' vs' hl => hin f' l' vs' (by simp; omega))]; simp
  | @comma f c l vs hb _ ih =>
    intro vals
    rw [loop, closer_none.mpr (sep_not_opener (.inr hb))]
    simp only [isComma_iff.mpr hb, if_true]
    rw [if_neg (by rw [isBlank_iff]; exact comma_not_blank hb)]
    rw [ih (fun f' l' vs' hl => hin f' l' vs' (by simp; omega))]; simp
  | @lastWord f w hw =>
    intro vals
    have := loop_word (inner := inner) (fun c hc => ⟨(hw.2 c hc).1, (hw.2 c hc).2.1⟩) [] vals []
    simp only [List.append_nil, List.nil_append] at this
    rw [this, loop]; simp [hw.1]
  | @word f w s l vs hw hs _ ih =>
    intro vals
    rw [loop_word (fun c hc => ⟨(hw.2 c hc).1, (hw.2 c hc).2.1⟩), List.nil_append, loop,
      closer_none.mpr (sep_not_opener hs)]
    simp only []
    have ih' := ih (fun f' l' vs' hl => hin f' l' vs' (by simp; omega))
    by_cases hb : Blank s
    · simp only [isBlank_iff.mpr hb, if_true]
      rw [ih']; simp [hw.1]
    · have hc : Comma s := hs.resolve_left hb
      rw [if_neg (by rw [isBlank_iff]; exact hb), if_pos (isComma_iff.mpr hc), ih']; simp [hw.1]
  | @emptyGroup f o c l vs hp _ ih =>
    intro vals
    have := loop_group (inner := inner) hp (l := []) .nil [] vals l
    simp only [List.nil_append, List.tail_cons] at this
    rw [this, hin (some c) [] [] (by simp) .done]
    simp only [if_true]
    rw [ih (fun f' l' vs' hl => hin f' l' vs' (by simp; omega))]; simp
  | @group f o c l vs l' vs' hp hne hl _ _ ih2 =>
    intro vals
    rw [loop_group hp (line_bal hl c rfl ⟨o, hp⟩)]
    simp only [List.nil_append, List.tail_cons]
    rw [hin (some c) l vs (by simp; omega) hl, if_neg hne]
    simp only []
    rw [ih2 (fun f' l' vs' hl => hin f' l' vs' (by simp; omega))]; simp

theorem splitFuel_line : ∀ (n : Nat) {f l vs}, l.length < n → Line f l vs →
    splitFuel n l = if l = [] then some [.text []] else some vs := by
  intro n
  induction n with
  | zero => intro f l vs h; omega
  | succ n ih =>
    intro f l vs hl h
    unfold splitFuel
    by_cases he : l = []
    · simp [he]
    · simp only [he, if_false]
      rw [loop_line h (fun f' l' vs' hlt hl' => ih (by omega) hl')]; simp

theorem bal_char {f c : Char} {l : List Char} (hc : ¬ Opener c) (h : Bal f (c :: l)) : c ≠ f ∧ Bal f l := by
  cases h with
  | char _ h2 h3 => exact ⟨h2, h3⟩
  | group hp _ _ => exact absurd ⟨_, hp⟩ hc

theorem bal_word {f : Char} {w l : List Char} (hw : ∀ c ∈ w, ¬ Opener c) (h : Bal f (w ++ l)) :
    (∀ c ∈ w, c ≠ f) ∧ Bal f l := by
  induction w with
  | nil => exact ⟨by simp, h⟩
  | cons c w ih =>
    obtain ⟨h1, h2⟩ := bal_char (hw c (by simp)) h
    obtain ⟨h3, h4⟩ := ih (fun d hd => hw d (by simp [hd])) h2
    exact ⟨by simpa using ⟨h1, h3⟩, h4⟩

theorem bal_group {f o c : Char} {l l' : List Char} (hp : Pair o c) (hl : Bal c l) (h : Bal f (o :: (l ++ c :: l'))) :
    Bal f l' := by
  generalize hx : o :: (l ++ c :: l') = x at h
  cases h with
  | nil => simp at hx
  | char h1 _ _ => simp at hx; exact absurd ⟨_, hx.1 ▸ hp⟩ h1
  | group hp' hb1 hb2 =>
    simp only [List.cons.injEq] at hx
    obtain ⟨rfl, hx⟩ := hx
    obtain rfl := pair_unique hp hp'
    obtain ⟨rfl, rfl⟩ := bal_unique (pair_close_not_open hp) hl hb1 hx
    exact hb2

/-- The contents of a group, read on its own, is a line that does not contain the closing bracket. -/
theorem line_restrict {f l vs} (h : Line f l vs) : ∀ c, Bal c l → Line (some c) l vs := by
  induction h with
  | done => intro c _; exact .done
  | blank hb _ ih => intro c h; exact .blank hb (ih c (bal_char (sep_not_opener (.inl hb)) h).2)
  | comma hb _ ih => intro c h; exact .comma hb (ih c (bal_char (sep_not_opener (.inr hb)) h).2)
  | @lastWord f w hw =>
    intro c h
    have := bal_word (l := []) (fun d hd => (hw.2 d hd).2.1) (by simpa using h)
    exact .lastWord ⟨hw.1, fun d hd => ⟨(hw.2 d hd).1, (hw.2 d hd).2.1, by simpa using this.1 d hd⟩⟩
  | word hw hs _ ih =>
    intro c h
    obtain ⟨h1, h2⟩ := bal_word (fun d hd => (hw.2 d hd).2.1) h
    exact .word ⟨hw.1, fun d hd => ⟨(hw.2 d hd).1, (hw.2 d hd).2.1, by simpa using h1 d hd⟩⟩ hs
      (ih c (bal_char (sep_not_opener hs) h2).2)
  | emptyGroup hp _ ih => intro c h; exact .emptyGroup hp (ih c (bal_group (l := []) hp .nil h))
  | group hp hne hl _ _ ih2 =>
    intro c h
    exact .group hp hne hl (ih2 c (bal_group hp (line_bal hl _ rfl ⟨_, hp⟩) h))

theorem splitFuel_open {o c : Char} {w l : List Char} (hp : Pair o c) (n : Nat) (hw : ∀ d ∈ w, ¬ Separator d ∧ ¬ Opener d)
    (hb : Bal c l) : splitFuel n (w ++ o :: l) = none := by
  cases n with
  | zero => rfl
  | succ n =>
    unfold splitFuel
    rw [if_neg (by simp), loop_word hw, loop, closer_some.mpr hp]
    simp only []
    have := loop_bal (inner := splitFuel n) hb [] ([] ++ w ++ [o]) [] []
    rw [List.append_nil] at this
    rw [this, loop]; simp

theorem loop_sound (n : Nat) (hin : ∀ l vs, splitFuel n l = some vs → (l = [] ∧ vs = [.text []]) ∨ (l ≠ [] ∧ Line none l vs)) :
    ∀ (k : Nat) (s : List Char), s.length ≤ k → ∀ (cur : List Char) (vals r : List Val),
      (∀ d ∈ cur, ¬ Separator d ∧ ¬ Opener d) → loop (splitFuel n) [] cur vals s = some r →
      ∃ vs, r = vals ++ vs ∧ Line none (cur ++ s) vs := by
  intro k
  induction k with
  | zero =>
    intro s hs cur vals r hc h
    have : s = [] := by simpa using hs
    subst this
    rw [loop] at h
    by_cases he : cur = []
    · subst he; simp at h; exact ⟨[], by simp [h], by simpa using .done⟩
    · simp [he] at h
      exact ⟨[.text cur], h.symm, by simpa using .lastWord ⟨he, fun d hd => ⟨(hc d hd).1, (hc d hd).2, by simp⟩⟩⟩
  | succ k ih =>
    intro s hs cur vals r hc h
    cases s with
    | nil => exact (by
        rw [loop] at h
        by_cases he : cur = []
        · subst he; simp at h; exact ⟨[], by simp [h], by simpa using .done⟩
        · simp [he] at h
          exact ⟨[.text cur], h.symm, by simpa using .lastWord ⟨he, fun d hd => ⟨(hc d hd).1, (hc d hd).2, by simp⟩⟩⟩)
    | cons c s =>
      simp only [List.length_cons, Nat.add_le_add_iff_right] at hs
      by_cases ho : Opener c
      · obtain ⟨d, hd⟩ := ho
        have hf := h
        rw [loop, closer_some.mpr hd] at hf
        obtain ⟨l, rest, rfl, hb⟩ := loop_find _ s (Nat.le_refl _) _ _ _ _ _ hf
        rw [loop_group hd hb] at h
        cases hcur : cur with
        | cons c0 w =>
          exfalso
          rw [hcur] at h
          simp only [List.cons_append, List.tail_cons] at h
          rw [splitFuel_open hd n (fun e he => hc e (by simp [hcur, he])) hb] at h
          simp at h
        | nil =>
          rw [hcur] at h
          simp only [List.nil_append, List.tail_cons] at h
          cases hi : splitFuel n l with
          | none => rw [hi] at h; simp at h
          | some vs1 =>
            rw [hi] at h
            simp only [] at h
            obtain ⟨vs2, hr, hl2⟩ := ih rest (by simp at hs; omega) [] _ _ (by simp) h
            refine ⟨.group vs1 :: vs2, by simp [hr], ?_⟩
            rw [List.nil_append] at hl2 ⊢
            rcases hin l vs1 hi with ⟨rfl, rfl⟩ | ⟨hne, hl⟩
            · exact .emptyGroup hd hl2
            · exact .group hd hne (line_restrict hl d hb) hl2
      · rw [loop, closer_none.mpr ho] at h
        simp only [] at h
        by_cases hb : Blank c
        · rw [if_pos (isBlank_iff.mpr hb)] at h
          obtain ⟨vs, hr, hl⟩ := ih s hs [] _ _ (by simp) h
          rw [List.nil_append] at hl
          by_cases he : cur = []
          · subst he; exact ⟨vs, by simpa using hr, .blank hb hl⟩
          · simp [he] at hr
            exact ⟨.text cur :: vs, by simp [hr], .word ⟨he, fun d hd => ⟨(hc d hd).1, (hc d hd).2, by simp⟩⟩ (.inl hb) hl⟩
        · rw [if_neg (by rw [isBlank_iff]; exact hb)] at h
          by_cases hk : Comma c
          · rw [if_pos (isComma_iff.mpr hk)] at h
            obtain ⟨vs, hr, hl⟩ := ih s hs [] _ _ (by simp) h
            rw [List.nil_append] at hl
            by_cases he : cur = []
            · subst he; exact ⟨.missing :: vs, by simpa using hr, .comma hk hl⟩
            · simp [he] at hr
              exact ⟨.text cur :: vs, by simp [hr], .word ⟨he, fun d hd => ⟨(hc d hd).1, (hc d hd).2, by simp⟩⟩ (.inr hk) hl⟩
          · rw [if_neg (by rw [isComma_iff]; exact hk)] at h
            obtain ⟨vs, hr, hl⟩ := ih s hs (cur ++ [c]) _ _ (by
              intro d hd
              rcases List.mem_append.mp hd with h1 | h1
              · exact hc d h1
              · simp at h1; subst h1; exact ⟨by rintro (h2 | h2) <;> contradiction, ho⟩) h
            exact ⟨vs, hr, by simpa using hl⟩

theorem splitFuel_sound : ∀ (n : Nat) (l : List Char) (vs : List Val), splitFuel n l = some vs →
    (l = [] ∧ vs = [.text []]) ∨ (l ≠ [] ∧ Line none l vs) := by
  intro n
  induction n with
  | zero => intro l vs h; simp [splitFuel] at h
  | succ n ih =>
    intro l vs h
    unfold splitFuel at h
    by_cases he : l = []
    · left; simp [he] at h; exact ⟨he, h.symm⟩
    · right
      simp only [he, if_false] at h
      obtain ⟨ws, rfl, hl⟩ := loop_sound n ih l.length l (Nat.le_refl _) [] [] vs (by simp) h
      exact ⟨he, by simpa using hl⟩

end Lemmas.SplitLine
