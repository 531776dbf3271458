import Verif.Model.Runner
namespace Lemmas.FileName
open Model.Runner

theorem digit_ne_dot {c : Char} (h : c.isDigit = true) : c ≠ '.' ∧ c ≠ '_' := by
  constructor <;> rintro rfl <;> revert h <;> decide

theorem takeWhile_append_all {p : Char → Bool} (l m : List Char) (h : ∀ c ∈ l, p c = true) :
    (l ++ m).takeWhile p = l ++ m.takeWhile p := by
  induction l with
  | nil => rfl
  | cons a l ih => simp [h a (by simp), ih (fun c hc => h c (by simp [hc]))]

theorem dropWhile_append_all {p : Char → Bool} (l m : List Char) (h : ∀ c ∈ l, p c = true) :
    (l ++ m).dropWhile p = m.dropWhile p := by
  induction l with
  | nil => rfl
  | cons a l ih => simp [h a (by simp), ih (fun c hc => h c (by simp [hc]))]

/-- Shape of pathlib's split: the suffix is empty or a dot followed by a non-empty dot-free word. -/
theorem splitExt_spec (name : List Char) :
    let st := (splitExt name).1
    let su := (splitExt name).2
    name = st ++ su ∧
    ((su = [] ∧ (('.' ∉ name) ∨ (∃ e, name = '.' :: e ∧ '.' ∉ e) ∨ (∃ b, name = b ++ ['.']))) ∨
     (∃ e, su = '.' :: e ∧ e ≠ [] ∧ '.' ∉ e ∧ st ≠ [])) := by
  unfold splitExt
  have hsplit := List.takeWhile_append_dropWhile (p := fun c : Char => decide (c ≠ '.')) (l := name.reverse)
  have hext : '.' ∉ name.reverse.takeWhile (fun c : Char => decide (c ≠ '.')) := by
    intro h
    have := List.all_takeWhile (p := fun c : Char => decide (c ≠ '.')) (l := name.reverse)
    rw [List.all_eq_true] at this
    simpa using this _ h
  generalize hE : name.reverse.takeWhile (fun c : Char => decide (c ≠ '.')) = E at hsplit hext
  generalize hD : name.reverse.dropWhile (fun c : Char => decide (c ≠ '.')) = D at hsplit
  simp only [hD, hE]
  cases D with
  | nil =>
    simp only [List.append_nil] at hsplit
    refine ⟨by simp, Or.inl ⟨rfl, Or.inl ?_⟩⟩
    intro h; apply hext; rw [hsplit]; simpa using h
  | cons d before =>
    have hd : d = '.' := by
      have := List.head?_dropWhile_not (fun c : Char => decide (c ≠ '.')) name.reverse
      rw [hD] at this
      simpa using this
    subst hd
    have hname : name = before.reverse ++ '.' :: E.reverse := by
      have := congrArg List.reverse hsplit
      simpa using this.symm
    simp only
    split
    · rename_i hc
      refine ⟨by simp, Or.inl ⟨rfl, Or.inr ?_⟩⟩
      rcases hc with hc | hc
      · left; subst hc; exact ⟨E.reverse, by simpa using hname, by simpa using hext⟩
      · right; subst hc; exact ⟨before.reverse, by simpa using hname⟩
    · rename_i hc
      refine ⟨by simpa using hname, Or.inr ⟨E.reverse, rfl, ?_, by simpa using hext, ?_⟩⟩
      · intro h; exact hc (Or.inr (by simpa using h))
      · intro h; exact hc (Or.inl (by simpa using h))

/-- Splitting off a proper extension. -/
theorem splitExt_append (st e : List Char) (hst : st ≠ []) (he : e ≠ []) (hdot : '.' ∉ e) :
    splitExt (st ++ '.' :: e) = (st, '.' :: e) := by
  have hE : (st ++ '.' :: e).reverse = e.reverse ++ '.' :: st.reverse := by simp
  have hall : ∀ c ∈ e.reverse, (fun c : Char => decide (c ≠ '.')) c = true := by
    intro c hc; simp only [decide_eq_true_eq]; rintro rfl; exact hdot (by simpa using hc)
  unfold splitExt
  simp only [hE, takeWhile_append_all _ _ hall, dropWhile_append_all _ _ hall]
  simp [hst, he]

theorem splitExt_nodot (n : List Char) (h : '.' ∉ n) : splitExt n = (n, []) := by
  have hall : ∀ c ∈ n.reverse, (fun c : Char => decide (c ≠ '.')) c = true := by
    intro c hc; simp only [decide_eq_true_eq]; rintro rfl; exact h (by simpa using hc)
  have := dropWhile_append_all n.reverse [] hall
  simp only [List.append_nil] at this
  unfold splitExt
  simp only [this, List.dropWhile_nil]

theorem splitExt_leading (e : List Char) (h : '.' ∉ e) : splitExt ('.' :: e) = ('.' :: e, []) := by
  have hall : ∀ c ∈ e.reverse, (fun c : Char => decide (c ≠ '.')) c = true := by
    intro c hc; simp only [decide_eq_true_eq]; rintro rfl; exact h (by simpa using hc)
  have hE : ('.' :: e).reverse = e.reverse ++ ['.'] := by simp
  unfold splitExt
  simp only [hE, takeWhile_append_all _ _ hall, dropWhile_append_all _ _ hall]
  simp

theorem digits_no_dot (n : Nat) : '.' ∉ Nat.toDigits 10 n := by
  intro h; exact (digit_ne_dot (Nat.isDigit_of_mem_toDigits (by omega) (by omega) h)).1 rfl

/-- The stem of a generated file name ends in `_<run number>`. -/
theorem splitExt_runFileName (name : List Char) (n : Nat) (hend : ∀ b, name ≠ b ++ ['.']) :
    (splitExt (runFileName name n)).1 = (splitExt name).1 ++ '_' :: Nat.toDigits 10 n := by
  have hs := splitExt_spec name
  simp only at hs
  obtain ⟨hname, hs⟩ := hs
  unfold runFileName
  rcases hs with ⟨hsu, hcase⟩ | ⟨e, hsu, hene, hedot, hst⟩
  · have hst : (splitExt name).1 = name := by rw [hsu] at hname; simpa using hname.symm
    have hsp : splitExt name = (name, []) := by
      exact Prod.ext hst hsu
    simp only [hsp]
    simp only [show ¬ ([] = ['.', 'q', 's', 'c', 'h']) by decide, if_false, List.append_nil]
    rcases hcase with h | ⟨e, rfl, he⟩ | ⟨b, hb⟩
    · rw [splitExt_nodot]
      simp only [List.mem_append, List.mem_cons, not_or]
      exact ⟨h, by decide, digits_no_dot n⟩
    · rw [List.cons_append, splitExt_leading]
      simp only [List.mem_append, List.mem_cons, not_or]
      exact ⟨he, by decide, digits_no_dot n⟩
    · exact absurd hb (hend b)
  · have hsp : splitExt name = ((splitExt name).1, '.' :: e) := by rw [← hsu]
    generalize (splitExt name).1 = st at *
    rw [hsp]
    simp only
    split
    · rw [show st ++ '_' :: (Nat.toDigits 10 n ++ ['.', 'n', 'e', 't']) = (st ++ '_' :: Nat.toDigits 10 n) ++ '.' :: ['n','e','t'] by simp]
      rw [splitExt_append _ _ (by simp) (by simp) (by decide)]
    · rw [show st ++ '_' :: (Nat.toDigits 10 n ++ '.' :: e) = (st ++ '_' :: Nat.toDigits 10 n) ++ '.' :: e by simp]
      rw [splitExt_append _ _ (by simp) hene hedot]

/-- The run number can be read off `stem_<n>`. -/
theorem stem_inj (a b : List Char) (m n : Nat)
    (h : a ++ '_' :: Nat.toDigits 10 m = b ++ '_' :: Nat.toDigits 10 n) : m = n := by
  have hall : ∀ k, ∀ c ∈ (Nat.toDigits 10 k).reverse, (fun c : Char => decide (c ≠ '_')) c = true := by
    intro k c hc
    simp only [decide_eq_true_eq]
    rw [List.mem_reverse] at hc
    exact (digit_ne_dot (Nat.isDigit_of_mem_toDigits (by omega) (by omega) hc)).2
  have h' := congrArg (fun l => (l.reverse.takeWhile (fun c : Char => decide (c ≠ '_')))) h
  simp only [List.reverse_append, List.reverse_cons, List.append_assoc] at h'
  rw [takeWhile_append_all _ _ (hall m), takeWhile_append_all _ _ (hall n)] at h'
  simp only [List.cons_append, List.nil_append, ne_eq, not_true_eq_false, decide_false,
    Bool.false_eq_true, not_false_eq_true, List.takeWhile_cons_of_neg, List.append_nil, List.reverse_inj] at h'
  rw [← Nat.ofDigitChars_ten_toDigits (n := m), h', Nat.ofDigitChars_ten_toDigits]

end Lemmas.FileName
