import Verif.Model.Asc
import Verif.Spec.AscFile
import Verif.Lemmas.PyStr
import Mathlib.Tactic.SplitIfs
/-
Lemmas about reading and writing LTspice schematics.
-/
namespace Lemmas.Asc
open Model.Asc Model.PyStr Lemmas.PyStr
open Spec.AscFile hiding Str

/-! ### Words -/

theorem wordsAux_blank (a b cur : Str) (c : Char) (hc : isSpace c = true) :
    wordsAux (a ++ c :: b) cur = wordsAux a cur ++ wordsAux b [] := by
  induction a generalizing cur with
  | nil =>
    simp only [List.nil_append, wordsAux, hc, if_true]
    split_ifs <;> simp
  | cons d a ih =>
    rw [List.cons_append, wordsAux, wordsAux]
    split_ifs
    · exact ih []
    · rw [ih []]; rfl
    · exact ih _

theorem words_blank (a b : Str) : words (a ++ ' ' :: b) = words a ++ words b := wordsAux_blank a b [] ' ' (by decide)

theorem words_row : ∀ ws : List Str, words (row ws) = ws.flatMap words
  | [] => rfl
  | [w] => by simp [row]
  | w :: x :: ws => by rw [row, words_blank, words_row (x :: ws)]; rfl

theorem wordsAux_word (w cur : Str) (h : ∀ c ∈ w, isSpace c = false) : wordsAux w cur = if cur ++ w = [] then [] else [cur ++ w] := by
  induction w generalizing cur with
  | nil => simp [wordsAux]
  | cons c w ih =>
    rw [wordsAux, if_neg (by simp [h c List.mem_cons_self]), ih _ (fun d hd => h d (List.mem_cons_of_mem _ hd))]
    simp

theorem words_word {w : Str} (h : Word w) : words w = [w] := by
  unfold words
  rw [wordsAux_word w [] h.2]
  simp [h.1]

theorem words_all (ws : List Str) (h : ∀ w ∈ ws, Word w) : ws.flatMap words = ws := by
  induction ws with
  | nil => rfl
  | cons w ws ih =>
    rw [List.flatMap_cons, words_word (h w List.mem_cons_self), ih (fun v hv => h v (List.mem_cons_of_mem _ hv))]
    rfl

theorem wordsAux_are_words (s cur : Str) (hc : ∀ c ∈ cur, isSpace c = false) : ∀ w ∈ wordsAux s cur, Word w := by
  induction s generalizing cur with
  | nil =>
    rw [wordsAux]
    split_ifs with h
    · simp
    · intro w hw
      obtain rfl := List.mem_singleton.1 hw
      exact ⟨h, hc⟩
  | cons c s ih =>
    rw [wordsAux]
    split_ifs with h1 h2
    · exact ih [] (by simp)
    · intro w hw
      rcases List.mem_cons.1 hw with rfl | hw
      · exact ⟨h2, hc⟩
      · exact ih [] (by simp) w hw
    · refine ih _ ?_
      intro d hd
      rcases List.mem_append.1 hd with hd | hd
      · exact hc d hd
      · obtain rfl := List.mem_singleton.1 hd
        simpa using h1

theorem words_are_words (s : Str) : ∀ w ∈ words s, Word w := wordsAux_are_words s [] (by simp)

theorem word_showInt (n : Int) : Word (showInt n) := ⟨showInt_ne n, fun c hc => (showInt_props n c hc).1⟩

theorem row_intercalate : ∀ ws : List Str, row ws = List.intercalate [' '] ws
  | [] => rfl
  | [w] => by simp [row, List.intercalate]
  | w :: x :: ws => by rw [row, row_intercalate (x :: ws)]; simp [List.intercalate]

theorem word_align (t : Text) : Word (alignGet t) := by
  unfold alignGet
  split_ifs <;> exact ⟨by decide, by decide⟩

/-! ### Trimmed text -/

theorem lstrip_head {s : Str} (h : ∀ c, s.head? = some c → isSpace c = false) : lstrip s = s := by
  cases s with
  | nil => rfl
  | cons c s => exact dropWhile_head _ c s (h c rfl)

theorem strip_trimmed {s : Str} (h : Trimmed s) : strip s = s := by
  unfold strip
  rw [lstrip_head h.1]
  unfold rstrip
  have : s.reverse.dropWhile isSpace = s.reverse := by
    apply lstrip_head
    intro c hc
    rw [List.head?_reverse] at hc
    exact h.2.1 c hc
  rw [this, List.reverse_reverse]

theorem dropWhile_head_false {α : Type} (f : α → Bool) (s : List α) : ∀ c, (s.dropWhile f).head? = some c → f c = false := by
  induction s with
  | nil => simp
  | cons d s ih =>
    intro c hc
    by_cases hd : f d = true
    · rw [List.dropWhile_cons_of_pos hd] at hc
      exact ih c hc
    · rw [List.dropWhile_cons_of_neg hd] at hc
      obtain rfl : d = c := by simpa using hc
      simpa using hd

theorem trimmed_strip {s : Str} (h : '\n' ∉ s) : Trimmed (strip s) := by
  have sub : ∀ c ∈ strip s, c ∈ s := by
    intro c hc
    unfold strip rstrip lstrip at hc
    rw [List.mem_reverse] at hc
    have h1 := (List.dropWhile_suffix isSpace).subset hc
    rw [List.mem_reverse] at h1
    exact (List.dropWhile_suffix isSpace).subset h1
  refine ⟨?_, ?_, fun hn => h (sub _ hn)⟩
  · intro c hc
    unfold strip rstrip at hc
    rw [List.head?_reverse] at hc
    -- the first character of the left stripped text is the same, unless all is white space
    have h1 := dropWhile_head_false isSpace s
    have key : ∀ (t : Str), (∀ c, t.head? = some c → isSpace c = false) → ∀ c, (t.reverse.dropWhile isSpace).getLast? = some c → isSpace c = false := by
      intro t ht c hc
      cases t with
      | nil => simp at hc
      | cons d t =>
        have hd := ht d rfl
        rw [List.reverse_cons] at hc
        have : ((t.reverse ++ [d]).dropWhile isSpace).getLast? = some d := by
          generalize t.reverse = u
          induction u with
          | nil => simp [hd]
          | cons e u ih =>
            by_cases he : isSpace e = true
            · rw [List.cons_append, List.dropWhile_cons_of_pos he]; exact ih
            · rw [List.cons_append, List.dropWhile_cons_of_neg he, ← List.cons_append, List.getLast?_concat]
        rw [this] at hc
        obtain rfl := Option.some.inj hc
        exact hd
    exact key _ h1 c hc
  · intro c hc
    unfold strip rstrip at hc
    rw [List.getLast?_reverse] at hc
    exact dropWhile_head_false isSpace _ c hc

/-! ### Dictionaries -/

theorem dset_fresh {α : Type} (k : Str) (v : α) (l : List (Str × α)) (h : k ∉ l.map Prod.fst) : dset k v l = l ++ [(k, v)] := by
  induction l with
  | nil => rfl
  | cons p l ih =>
    obtain ⟨k', v'⟩ := p
    simp only [List.map_cons, List.mem_cons, not_or] at h
    rw [dset, if_neg (Ne.symm h.1), ih h.2]
    rfl

theorem dset_keys {α : Type} (k : Str) (v : α) (l : List (Str × α)) :
    (dset k v l).map Prod.fst = if k ∈ l.map Prod.fst then l.map Prod.fst else l.map Prod.fst ++ [k] := by
  induction l with
  | nil => simp [dset]
  | cons p l ih =>
    obtain ⟨k', v'⟩ := p
    rw [dset]
    by_cases hk : k' = k
    · simp [hk]
    · rw [if_neg hk, List.map_cons, ih]
      simp only [List.map_cons, List.mem_cons]
      have : k ≠ k' := Ne.symm hk
      by_cases hm : k ∈ l.map Prod.fst
      · rw [if_pos hm, if_pos (Or.inr hm)]
      · rw [if_neg hm, if_neg (by rintro (h | h); exact this h; exact hm h)]
        rfl

theorem dset_nodup {α : Type} (k : Str) (v : α) (l : List (Str × α)) (h : (l.map Prod.fst).Nodup) : ((dset k v l).map Prod.fst).Nodup := by
  rw [dset_keys]
  split_ifs with hk
  · exact h
  · exact List.nodup_append.2 ⟨h, by simp, by
      intro a ha b hb hab
      obtain rfl := List.mem_singleton.1 hb
      exact hk (hab ▸ ha)⟩

theorem dset_mem {α : Type} (k : Str) (v : α) (l : List (Str × α)) : ∀ p ∈ dset k v l, p = (k, v) ∨ p ∈ l := by
  induction l with
  | nil => intro p hp; left; simpa [dset] using hp
  | cons q l ih =>
    obtain ⟨k', v'⟩ := q
    intro p hp
    rw [dset] at hp
    split_ifs at hp with hk
    · rcases List.mem_cons.1 hp with rfl | hp
      · subst hk; exact Or.inl rfl
      · exact Or.inr (List.mem_cons_of_mem _ hp)
    · rcases List.mem_cons.1 hp with rfl | hp
      · exact Or.inr List.mem_cons_self
      · rcases ih p hp with h | h
        · exact Or.inl h
        · exact Or.inr (List.mem_cons_of_mem _ h)

/-! ### Lines of a file -/

theorem splitOn_lines (ls : List Str) (h : ∀ l ∈ ls, '\n' ∉ l) : splitOn '\n' (fileText ls) = ls ++ [[]] := by
  induction ls with
  | nil => rfl
  | cons l ls ih =>
    have e : fileText (l :: ls) = l ++ '\n' :: fileText ls := by simp [fileText]
    rw [e, splitOn_cons '\n' _ _ (fun c hc hn => h l List.mem_cons_self (hn ▸ hc)), ih (fun m hm => h m (List.mem_cons_of_mem _ hm))]
    rfl

theorem linesOf_fileText (ls : List Str) (h : ∀ l ∈ ls, '\n' ∉ l) : linesOf (fileText ls) = ls := by
  unfold linesOf
  rw [splitOn_lines ls h]
  simp

theorem splitOn_clean_parts (sep : Char) (s : Str) : ∀ p ∈ splitOn sep s, sep ∉ p := by
  induction s with
  | nil => simp [splitOn]
  | cons c s ih =>
    rw [splitOn]
    split_ifs with hc
    · intro p hp
      rcases List.mem_cons.1 hp with rfl | hp
      · simp
      · exact ih p hp
    · cases hs : splitOn sep s with
      | nil =>
        intro p hp
        obtain rfl := List.mem_singleton.1 hp
        simpa using Ne.symm hc
      | cons w ws =>
        rw [hs] at ih
        intro p hp
        rcases List.mem_cons.1 hp with rfl | hp
        · have := ih w List.mem_cons_self
          simp only [List.mem_cons, not_or]
          exact ⟨Ne.symm hc, this⟩
        · exact ih p (List.mem_cons_of_mem _ hp)

theorem linesOf_clean (s : Str) : ∀ l ∈ linesOf s, '\n' ∉ l := by
  intro l hl
  unfold linesOf at hl
  apply splitOn_clean_parts '\n' s l
  simp only at hl
  split_ifs at hl
  · exact List.dropLast_subset _ hl
  · exact hl

theorem row_clean (ws : List Str) (h : ∀ w ∈ ws, '\n' ∉ w) : '\n' ∉ row ws := by
  induction ws with
  | nil => simp [row]
  | cons w ws ih =>
    cases ws with
    | nil => exact h w List.mem_cons_self
    | cons x ws =>
      rw [row]
      simp only [List.mem_append, List.mem_cons, not_or]
      exact ⟨h w List.mem_cons_self, by decide, ih (fun v hv => h v (List.mem_cons_of_mem _ hv))⟩

theorem word_clean {w : Str} (h : Word w) : '\n' ∉ w := by
  intro hn
  have := h.2 _ hn
  revert this; decide

end Lemmas.Asc
