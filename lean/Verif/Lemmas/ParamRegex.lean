import Verif.Model.ParamRegex
import Verif.Spec.ParamLine
import Verif.Lemmas.PyStr
import Verif.Lemmas.FloatUnit
import Mathlib.Tactic.ByContra
import Mathlib.Tactic.Tauto
/-
What the regular expression finds in a well formed directive.
-/
namespace Lemmas.ParamRegex
open Model.PyStr Model.ParamRegex
open Spec.ParamLine hiding Str
open Lemmas.FloatUnit (takeWhile_append_stop takeWhile_all)

theorem word_iff (c : Char) : wordChar c = true ↔ NameChar c := by
  simp only [wordChar, NameChar, Char.isAlphanum, Bool.or_eq_true, decide_eq_true_eq, or_assoc]

theorem num_iff (c : Char) : numChar c = true ↔ NumChar c := by
  simp only [numChar, NumChar, Bool.or_eq_true, decide_eq_true_eq, or_assoc]

theorem unit_iff (c : Char) : unitChar c = true ↔ (c.isAlpha = true ∨ c = '%') := by
  simp only [unitChar, Bool.or_eq_true, decide_eq_true_eq]

/-- white space is none of the characters that matter -/
theorem space_facts (c : Char) (h : isSpace c = true) : wordChar c = false ∧ numChar c = false ∧ unitChar c = false ∧ c ≠ '=' ∧ c ≠ '{' ∧ c ≠ '"' := by
  have key : ∀ d : Char, isSpace d = false → c ≠ d := by rintro d hd rfl; rw [h] at hd; cases hd
  have hdig : c.isDigit = false := by
    by_contra hc
    have := (Lemmas.PyStr.digit_props c (by simpa using hc)).1
    rw [h] at this; cases this
  have halpha : c.isAlpha = false := by
    by_contra hc
    have hc : c.isAlpha = true := by simpa using hc
    simp only [Char.isAlpha, Char.isUpper, Char.isLower, Bool.or_eq_true, Bool.and_eq_true, decide_eq_true_eq, UInt32.le_iff_toNat_le] at hc
    simp only [isSpace, Bool.or_eq_true, Bool.and_eq_true, decide_eq_true_eq] at h
    have e : c.toNat = c.val.toNat := rfl
    rw [e] at h
    have h65 : ('A'.val).toNat = 65 := rfl
    have h90 : ('Z'.val).toNat = 90 := rfl
    have h97 : ('a'.val).toNat = 97 := rfl
    have h122 : ('z'.val).toNat = 122 := rfl
    omega
  refine ⟨?_, ?_, ?_, key _ (by decide), key _ (by decide), key _ (by decide)⟩
  · rw [← Bool.not_eq_true, word_iff]
    rintro (h1 | h1 | h1)
    · rw [halpha] at h1; cases h1
    · rw [hdig] at h1; cases h1
    · exact key _ (by decide) h1
  · rw [← Bool.not_eq_true, num_iff]
    rintro (h1 | h1 | h1 | h1 | h1 | h1)
    · rw [hdig] at h1; cases h1
    all_goals exact key _ (by decide) h1
  · rw [← Bool.not_eq_true, unit_iff]
    rintro (h1 | h1)
    · rw [halpha] at h1; cases h1
    · exact key _ (by decide) h1

theorem scan_skip (a b : Str) : ∀ (pos : Nat), scan a.length pos (a ++ b) = scan 0 (pos + a.length) b := by
  induction a with
  | nil => intro pos; rfl
  | cons c a ih =>
    intro pos
    simp only [List.length_cons, List.cons_append, scan]
    rw [ih]; congr 1; omega

theorem scan_nonword {c : Char} (h : wordChar c = false) (pos : Nat) (s : Str) : scan 0 pos (c :: s) = scan 0 (pos + 1) s := by
  simp [scan, h]

theorem scan_nonwords (a : Str) (h : ∀ c ∈ a, wordChar c = false) : ∀ (pos : Nat) (s : Str), scan 0 pos (a ++ s) = scan 0 (pos + a.length) s := by
  induction a with
  | nil => intro pos s; rfl
  | cons c a ih =>
    intro pos s
    rw [List.cons_append, scan_nonword (h c (by simp)), ih (fun d hd => h d (by simp [hd]))]
    congr 1; simp; omega

/-- a word that no separator and value follow is passed over, however it is entered -/
theorem scan_word_fail (w r : Str) (hw : ∀ c ∈ w, wordChar c = true) (hr : ∀ c ∈ r.head?, wordChar c = false)
    (hs : sepValue? r = none) : ∀ (pos : Nat), scan 0 pos (w ++ r) = scan 0 (pos + w.length) r := by
  induction w with
  | nil => intro pos; rfl
  | cons c w ih =>
    intro pos
    have h := takeWhile_append_stop (p := wordChar) (a := c :: w) (b := r) hw hr
    have hd : (c :: (w ++ r)).dropWhile wordChar = r := h.2
    rw [List.cons_append, scan, if_pos (hw c (by simp)), hd, hs]
    simp only
    rw [ih (fun d hd => hw d (by simp [hd]))]
    congr 1; simp; omega

theorem value_num (n u r : Str) (hn : n ≠ []) (h1 : ∀ c ∈ n, numChar c = true) (h2 : ∀ c ∈ u, unitChar c = true)
    (h3 : ∀ c ∈ r.head?, numChar c = false ∧ unitChar c = false) : value? (n ++ u ++ r) = some (n ++ u, r) := by
  obtain ⟨c, n', rfl⟩ := List.exists_cons_of_ne_nil hn
  have hc : numChar c = true := h1 c (by simp)
  have n1 : c ≠ '{' := by rintro rfl; simp [numChar] at hc
  have n2 : c ≠ '"' := by rintro rfl; simp [numChar] at hc
  have e : (c :: n') ++ u ++ r = c :: (n' ++ u ++ r) := by simp
  rw [e, value?]
  simp only [if_neg n1, if_neg n2, if_pos hc]
  rw [← e]
  -- split the unit at its first character that is not numeric
  have hu : u = u.takeWhile numChar ++ u.dropWhile numChar := (List.takeWhile_append_dropWhile).symm
  have ht : ∀ x ∈ (c :: n') ++ u.takeWhile numChar, numChar x = true := by
    intro x hx
    rcases List.mem_append.1 hx with m | m
    · exact h1 x m
    · exact List.mem_takeWhile_imp m
  have hh : ∀ x ∈ (u.dropWhile numChar ++ r).head?, numChar x = false := by
    intro x hx
    cases hd : u.dropWhile numChar with
    | nil => rw [hd] at hx; exact (h3 x hx).1
    | cons y l =>
      rw [hd] at hx
      simp only [List.cons_append, List.head?_cons, Option.mem_def, Option.some.injEq] at hx
      subst hx
      have := List.head?_dropWhile_not numChar u
      rw [hd] at this
      simpa using this
  have key := takeWhile_append_stop (p := numChar) ht hh
  have e2 : (c :: n') ++ u ++ r = ((c :: n') ++ u.takeWhile numChar) ++ (u.dropWhile numChar ++ r) := by
    conv_lhs => rw [hu]
    simp only [List.append_assoc]
  rw [e2, key.1, key.2]
  have hu2 : ∀ x ∈ u.dropWhile numChar, unitChar x = true := fun x hx => h2 x ((List.dropWhile_suffix _).mem hx)
  have key2 := takeWhile_append_stop (p := unitChar) hu2 (fun x hx => (h3 x hx).2)
  rw [key2.1, key2.2]
  simp only [List.append_assoc, List.takeWhile_append_dropWhile]

theorem value_ok (v r : Str) (h : Value v) (h3 : ∀ c ∈ r.head?, numChar c = false ∧ unitChar c = false) :
    value? (v ++ r) = some (v, r) := by
  rcases h with ⟨b, rfl, hb⟩ | ⟨b, rfl, hb⟩ | ⟨n, u, rfl, hn, h1, h2⟩
  · have := takeWhile_append_stop (p := fun c => decide (c ≠ '}')) (a := b) (b := '}' :: r)
      (by intro c hc; simp; rintro rfl; exact hb hc) (by simp)
    have e : ('{' :: b ++ ['}']) ++ r = '{' :: (b ++ '}' :: r) := by simp
    rw [e, value?]
    simp only [if_true]
    rw [this.1, this.2]
    simp
  · have := takeWhile_append_stop (p := fun c => decide (c ≠ '"')) (a := b) (b := '"' :: r)
      (by intro c hc; simp; rintro rfl; exact hb hc) (by simp)
    have e : ('"' :: b ++ ['"']) ++ r = '"' :: (b ++ '"' :: r) := by simp
    rw [e, value?]
    rw [if_neg (by decide), if_pos rfl]
    rw [this.1, this.2]
    simp
  · exact value_num n u r hn (fun c hc => (num_iff c).2 (h1 c hc)) (fun c hc => (unit_iff c).2 (h2 c hc)) h3

/-- a value starts with none of the separator characters -/
theorem value_head (v : Str) (h : Value v) : ∃ c v', v = c :: v' ∧ isSpace c = false ∧ c ≠ '=' := by
  rcases h with ⟨b, rfl, hb⟩ | ⟨b, rfl, hb⟩ | ⟨n, u, rfl, hn, h1, h2⟩
  · exact ⟨'{', b ++ ['}'], rfl, by decide, by decide⟩
  · exact ⟨'"', b ++ ['"'], rfl, by decide, by decide⟩
  · obtain ⟨c, n', rfl⟩ := List.exists_cons_of_ne_nil hn
    have hc := h1 c (by simp)
    refine ⟨c, n' ++ u, rfl, ?_, ?_⟩
    · by_contra hs
      have := (space_facts c (by simpa using hs)).2.1
      rw [(num_iff c).2 hc] at this; cases this
    · rintro rfl; revert hc; unfold NumChar; decide

theorem sep_ok (s v r : Str) (hs : Sep s) (hv : Value v) : sep? (s ++ (v ++ r)) = some (s, v ++ r) := by
  obtain ⟨c, v', rfl, h1, h2⟩ := value_head v hv
  rcases hs with ⟨a, b, rfl, ha, hb⟩ | ⟨hb, hsp⟩
  · have k1 := takeWhile_append_stop (p := isSpace) (a := a) (b := '=' :: (b ++ (c :: v' ++ r))) ha (by
      intro x hx; simp at hx; subst hx; decide)
    have k2 := takeWhile_append_stop (p := isSpace) (a := b) (b := c :: v' ++ r) hb (by
      intro x hx; simp at hx; subst hx; exact h1)
    have e : (a ++ '=' :: b) ++ (c :: v' ++ r) = a ++ '=' :: (b ++ (c :: v' ++ r)) := by simp
    rw [e, sep?]
    simp only [k1.1, k1.2, k2.1, k2.2]
  · have k1 := takeWhile_append_stop (p := isSpace) (a := s) (b := c :: v' ++ r) hb (by
      intro x hx; simp at hx; subst hx; exact h1)
    rw [sep?]
    simp only [k1.1, k1.2]
    rw [List.cons_append]
    split
    · rename_i heq; injection heq with e1 _; exact absurd e1 h2
    · rw [if_pos hsp]

theorem sepValue_ok (s v r : Str) (hs : Sep s) (hv : Value v) (h3 : ∀ c ∈ r.head?, numChar c = false ∧ unitChar c = false) :
    sepValue? (s ++ (v ++ r)) = some (s, v, r) := by
  rw [sepValue?, sep_ok s v r hs hv]
  simp only [value_ok v r hv h3]

theorem sep_head (s t : Str) (h : Sep s) : ∀ c ∈ (s ++ t).head?, wordChar c = false := by
  intro c hc
  rcases h with ⟨a, b, rfl, ha, hb⟩ | ⟨hb, hsp⟩
  · cases a with
    | nil => simp at hc; subst hc; decide
    | cons x a => simp at hc; subst hc; exact (space_facts _ (ha _ (by simp))).1
  · cases s with
    | nil => cases hsp
    | cons x s => simp at hc; subst hc; exact (space_facts _ (hb _ (by simp))).1

/-- One item: found at its place, and the search goes on after it. -/
theorem scan_item (i : Item) (r : Str) (pos : Nat) (h : i.Ok) (h3 : ∀ c ∈ r.head?, numChar c = false ∧ unitChar c = false) :
    scan 0 pos (i.text ++ r) =
      ⟨i.name, i.value, pos + i.gap.length + i.name.length + i.sep.length, pos + i.text.length, pos + i.gap.length⟩ :: scan 0 (pos + i.text.length) r := by
  obtain ⟨_, hg, ⟨hn, hnc⟩, hs, hv⟩ := h
  have e : i.text ++ r = i.gap ++ (i.name ++ (i.sep ++ (i.value ++ r))) := by simp [Item.text]
  rw [e, scan_nonwords i.gap (fun c hc => (space_facts c (hg c hc)).1)]
  have hw : ∀ c ∈ i.name, wordChar c = true := fun c hc => (word_iff c).2 (hnc c hc)
  have k := takeWhile_append_stop (p := wordChar) (a := i.name) (b := i.sep ++ (i.value ++ r)) hw (sep_head _ _ hs)
  have ksv := sepValue_ok i.sep i.value r hs hv h3
  cases hname : i.name with
  | nil => exact absurd hname hn
  | cons c n' =>
    rw [hname] at k
    rw [List.cons_append, scan, if_pos (hw c (by rw [hname]; simp))]
    have k1 : List.takeWhile wordChar (c :: (n' ++ (i.sep ++ (i.value ++ r)))) = c :: n' := k.1
    have k2 : List.dropWhile wordChar (c :: (n' ++ (i.sep ++ (i.value ++ r)))) = i.sep ++ (i.value ++ r) := k.2
    rw [k1, k2, ksv]
    simp only
    have e3 : n' ++ (i.sep ++ (i.value ++ r)) = (n' ++ i.sep ++ i.value) ++ r := by simp
    have elen : (c :: n').length + i.sep.length + i.value.length - 1 = (n' ++ i.sep ++ i.value).length := by
      simp; omega
    rw [e3, elen, scan_skip]
    have el2 : pos + i.gap.length + (c :: n').length + i.sep.length + i.value.length = pos + i.text.length := by
      simp [Item.text, hname]; omega
    have el3 : pos + i.gap.length + 1 + (n' ++ i.sep ++ i.value).length = pos + i.text.length := by
      simp [Item.text, hname]; omega
    rw [el2, el3]

/-- no value starts in a quiet text -/
theorem value_quiet (s : Str) (h : ∀ c ∈ s, ¬ NumChar c ∧ c ≠ '{' ∧ c ≠ '"') : value? s = none := by
  cases s with
  | nil => rfl
  | cons c s =>
    have hc := h c (by simp)
    rw [value?]
    simp only [if_neg hc.2.1, if_neg hc.2.2]
    rw [if_neg (by rw [num_iff]; exact hc.1)]

theorem sep_suffix (s a r : Str) (h : sep? s = some (a, r)) : ∃ b, s = b ++ r := by
  unfold sep? at h
  simp only at h
  have e := (List.takeWhile_append_dropWhile (p := isSpace) (l := s)).symm
  split at h
  · rename_i r' heq
    rw [heq] at e
    simp only [Option.some.injEq, Prod.mk.injEq] at h
    refine ⟨s.takeWhile isSpace ++ '=' :: r'.takeWhile isSpace, ?_⟩
    rw [← h.2]
    conv_lhs => rw [e]
    simp [List.takeWhile_append_dropWhile]
  · split at h
    · simp only [Option.some.injEq, Prod.mk.injEq] at h
      exact ⟨s.takeWhile isSpace, by rw [← h.2]; exact e⟩
    · cases h

theorem sepValue_quiet (s : Str) (h : ∀ c ∈ s, ¬ NumChar c ∧ c ≠ '{' ∧ c ≠ '"') : sepValue? s = none := by
  unfold sepValue?
  cases hs : sep? s with
  | none => rfl
  | some p =>
    obtain ⟨a, r⟩ := p
    obtain ⟨b, rfl⟩ := sep_suffix s a r hs
    simp only [value_quiet r (fun c hc => h c (by simp [hc]))]

theorem scan_quiet (s : Str) (h : ∀ c ∈ s, ¬ NumChar c ∧ c ≠ '{' ∧ c ≠ '"') : ∀ pos, scan 0 pos s = [] := by
  induction s with
  | nil => intro pos; rfl
  | cons c s ih =>
    intro pos
    have ih' := ih (fun d hd => h d (by simp [hd]))
    rw [scan]
    by_cases hw : wordChar c = true
    · rw [if_pos hw]
      have : sepValue? (List.dropWhile wordChar (c :: s)) = none :=
        sepValue_quiet _ (fun d hd => h d ((List.dropWhile_suffix _).mem hd))
      rw [this]; exact ih' _
    · rw [if_neg hw]; exact ih' _

/-- Where the values of the items are. -/
def spans (pos : Nat) : List Item → List Match
  | [] => []
  | i :: l => ⟨i.name, i.value, pos + i.gap.length + i.name.length + i.sep.length, pos + i.text.length, pos + i.gap.length⟩ :: spans (pos + i.text.length) l

theorem item_head (i : Item) (h : i.Ok) (t : Str) : ∀ c ∈ (i.text ++ t).head?, isSpace c = true := by
  intro c hc
  obtain ⟨hg, hb, _⟩ := h
  cases hgap : i.gap with
  | nil => exact absurd hgap hg
  | cons x g =>
    simp only [Item.text, hgap, List.cons_append, List.head?_cons, Option.mem_def, Option.some.injEq] at hc
    subst hc; exact hb _ (by rw [hgap]; simp)

theorem rest_head (items : List Item) (tail : Str) (h : ∀ i ∈ items, i.Ok) (hs : ∀ c, tail.head? = some c → ¬ NameChar c ∧ c ≠ '%')
    (hq : ∀ c ∈ tail, ¬ NumChar c ∧ c ≠ '{' ∧ c ≠ '"') :
    ∀ c ∈ (items.flatMap Item.text ++ tail).head?, numChar c = false ∧ unitChar c = false ∧ wordChar c = false := by
  intro c hc
  cases items with
  | nil =>
    simp only [List.flatMap_nil, List.nil_append, Option.mem_def] at hc
    obtain ⟨h1, h2⟩ := hs c hc
    have h3 := hq c (List.mem_of_mem_head? hc)
    refine ⟨?_, ?_, ?_⟩
    · rw [← Bool.not_eq_true, num_iff]; exact h3.1
    · rw [← Bool.not_eq_true, unit_iff]
      rintro (a | a)
      · exact h1 (Or.inl a)
      · exact h2 a
    · rw [← Bool.not_eq_true, word_iff]; exact h1
  | cons i l =>
    simp only [List.flatMap_cons, List.append_assoc] at hc
    have := item_head i (h i (by simp)) _ c hc
    have f := space_facts c this
    exact ⟨f.2.1, f.2.2.1, f.1⟩

theorem scan_items (tail : Str) (hs : ∀ c, tail.head? = some c → ¬ NameChar c ∧ c ≠ '%')
    (hq : ∀ c ∈ tail, ¬ NumChar c ∧ c ≠ '{' ∧ c ≠ '"') :
    ∀ (items : List Item), (∀ i ∈ items, i.Ok) → ∀ pos, scan 0 pos (items.flatMap Item.text ++ tail) = spans pos items := by
  intro items
  induction items with
  | nil => intro _ pos; simpa [spans] using scan_quiet tail hq pos
  | cons i l ih =>
    intro h pos
    have hl : ∀ j ∈ l, j.Ok := fun j hj => h j (by simp [hj])
    rw [List.flatMap_cons, List.append_assoc, scan_item i _ pos (h i (by simp)) (fun c hc => by
      have := rest_head l tail hl hs hq c hc; exact ⟨this.1, this.2.1⟩), ih hl]
    rfl

theorem upper_word (c d : Char) (h : c.toUpper = d) (hd : d.isAlpha = true) : wordChar c = true := by
  by_cases hl : c.isLower = true
  · simp [wordChar, Char.isAlphanum, Char.isAlpha, hl]
  · have : c.toUpper = c := by
      unfold Char.toUpper
      simp only [Char.isLower, Bool.and_eq_true, decide_eq_true_eq] at hl
      rw [dif_neg]
      intro hc; exact hl ⟨hc.1, hc.2⟩
    rw [this] at h; subst h
    simp [wordChar, Char.isAlphanum, hd]

theorem upper_dot (c : Char) (h : c.toUpper = '.') : c = '.' := by
  by_cases hl : c.isLower = true
  · exfalso
    have hb : 97 ≤ c.toNat ∧ c.toNat ≤ 122 := by
      simp only [Char.isLower, Bool.and_eq_true, decide_eq_true_eq, UInt32.le_iff_toNat_le] at hl
      exact hl
    have : c.toUpper ≠ '.' := by
      have key : ∀ n : Fin 123, 97 ≤ n.val → (Char.ofNat n.val).toUpper ≠ '.' := by decide
      have := key ⟨c.toNat, by omega⟩ hb.1
      simpa [Char.ofNat_toNat] using this
    exact this h
  · have : c.toUpper = c := by
      unfold Char.toUpper
      simp only [Char.isLower, Bool.and_eq_true, decide_eq_true_eq] at hl
      rw [dif_neg]
      intro hc; exact hl ⟨hc.1, hc.2⟩
    rw [this] at h; exact h

/-- the keyword is a dot and a word of five characters -/
theorem keyword_shape (kw : Str) (h : upper kw = ".PARAM".toList) : ∃ w : Str, kw = '.' :: w ∧ (∀ c ∈ w, wordChar c = true) ∧ w.length = 5 := by
  have e : ".PARAM".toList = ['.', 'P', 'A', 'R', 'A', 'M'] := rfl
  rw [e] at h
  match kw, h with
  | [c0, c1, c2, c3, c4, c5], h =>
    simp only [upper, List.map_cons, List.map_nil, List.cons.injEq, and_true] at h
    obtain ⟨h0, h1, h2, h3, h4, h5⟩ := h
    refine ⟨[c1, c2, c3, c4, c5], by rw [upper_dot c0 h0], ?_, rfl⟩
    intro c hc
    simp only [List.mem_cons, List.not_mem_nil, or_false] at hc
    rcases hc with rfl | rfl | rfl | rfl | rfl
    · exact upper_word _ _ h1 (by decide)
    · exact upper_word _ _ h2 (by decide)
    · exact upper_word _ _ h3 (by decide)
    · exact upper_word _ _ h4 (by decide)
    · exact upper_word _ _ h5 (by decide)
  | [], h => simp [upper] at h
  | [_], h => simp [upper] at h
  | [_, _], h => simp [upper] at h
  | [_, _, _], h => simp [upper] at h
  | [_, _, _, _], h => simp [upper] at h
  | [_, _, _, _, _], h => simp [upper] at h
  | _ :: _ :: _ :: _ :: _ :: _ :: _ :: _, h => simp [upper] at h

/-- the keyword itself is not taken for a parameter -/
theorem sepValue_first (l : Line) (h : l.Ok) : sepValue? (l.items.flatMap Item.text ++ l.tail) = none := by
  cases hi : l.items with
  | nil =>
    simp only [List.flatMap_nil, List.nil_append]
    exact sepValue_quiet _ h.rest
  | cons i rest =>
    obtain ⟨hg, hb, ⟨hn, hnc⟩, _, _⟩ := h.items i (by rw [hi]; simp)
    have hnl := h.first i (by rw [hi]; rfl)
    obtain ⟨c, n', hname⟩ := List.exists_cons_of_ne_nil hn
    have hc : NameChar c := hnc c (by rw [hname]; simp)
    have hsp : isSpace c = false := by
      by_contra hs
      have := (space_facts c (by simpa using hs)).1
      rw [(word_iff c).2 hc] at this; cases this
    have hnum : numChar c = false := by
      rw [← Bool.not_eq_true, num_iff]
      intro hh; exact hnl ⟨c, by rw [hname]; rfl, hh⟩
    have hne : c ≠ '=' ∧ c ≠ '{' ∧ c ≠ '"' := by
      refine ⟨?_, ?_, ?_⟩ <;> (rintro rfl; revert hc; unfold NameChar; decide)
    have k := takeWhile_append_stop (p := isSpace) (a := i.gap) (b := c :: (n' ++ (i.sep ++ (i.value ++ (rest.flatMap Item.text ++ l.tail))))) hb
      (by intro x hx; simp at hx; subst hx; exact hsp)
    have e : (i :: rest).flatMap Item.text ++ l.tail = i.gap ++ c :: (n' ++ (i.sep ++ (i.value ++ (rest.flatMap Item.text ++ l.tail)))) := by
      simp [List.flatMap_cons, Item.text, hname]
    rw [e, sepValue?, sep?]
    simp only [k.1, k.2]
    split
    · rfl
    · rename_i a r heq
      split at heq
      · rename_i r' h2; injection h2 with h3 _; exact absurd h3 hne.1
      · split at heq
        · simp only [Option.some.injEq, Prod.mk.injEq] at heq
          rw [← heq.2, value?]
          simp only [if_neg hne.2.1, if_neg hne.2.2, hnum, Bool.false_eq_true, if_false]
        · cases heq

/-- finditer on a well formed directive gives its items. -/
theorem findIter_line (l : Line) (h : l.Ok) : findIter l.text = spans l.kw.length l.items := by
  obtain ⟨w, hk, hw, hlen⟩ := keyword_shape l.kw h.keyword
  have e : l.text = '.' :: (w ++ (l.items.flatMap Item.text ++ l.tail)) := by simp [Line.text, hk]
  rw [findIter, e, scan_nonword (by decide), scan_word_fail w _ hw (fun c hc => (rest_head l.items l.tail h.items h.stop h.rest c hc).2.2)
    (sepValue_first l h), scan_items l.tail h.stop h.rest l.items h.items]
  congr 1
  rw [hk]; simp; omega

theorem isParam_line (l : Line) (h : l.Ok) : isParam l.text = true := by
  have e : upper l.text = ".PARAM".toList ++ upper (l.items.flatMap Item.text ++ l.tail) := by
    rw [← h.keyword]; simp [Line.text, upper]
  rw [isParam, e]
  simp

/-- The first match of that name: the value, and what replacing it does. -/
theorem named_spans (p v : Str) : ∀ (items : List Item) (pos : Nat) (pre post : Str), pre.length = pos →
    (find p items = none → named p (spans pos items) = none) ∧
    (∀ x, find p items = some x → ∃ m, named p (spans pos items) = some m ∧ m.value = x ∧
      splice (pre ++ items.flatMap Item.text ++ post) m.start m.stop v = pre ++ (assign p v items).flatMap Item.text ++ post) := by
  intro items
  induction items with
  | nil => intro pos pre post _; exact ⟨fun _ => rfl, fun x hx => by simp [find] at hx⟩
  | cons i l ih =>
    intro pos pre post hpos
    obtain ⟨ih1, ih2⟩ := ih (pos + i.text.length) (pre ++ i.text) post (by simp [hpos])
    by_cases hs : Same i.name p
    · have hs' : upper i.name = upper p := hs
      refine ⟨fun hn => by simp [find, hs] at hn, fun x hx => ?_⟩
      simp only [find, if_pos hs, Option.some.injEq] at hx
      refine ⟨_, by simp only [named, spans, List.find?_cons, hs', decide_true]; rfl, hx, ?_⟩
      simp only [splice, assign, if_pos hs, List.flatMap_cons]
      have a1 : pre ++ (i.text ++ List.flatMap Item.text l) ++ post =
          (pre ++ i.gap ++ i.name ++ i.sep) ++ (i.value ++ (List.flatMap Item.text l ++ post)) := by simp [Item.text]
      have a2 : pre ++ (i.text ++ List.flatMap Item.text l) ++ post = (pre ++ i.text) ++ (List.flatMap Item.text l ++ post) := by simp
      have l1 : pos + i.gap.length + i.name.length + i.sep.length = (pre ++ i.gap ++ i.name ++ i.sep).length := by simp [hpos]; omega
      have l2 : pos + i.text.length = (pre ++ i.text).length := by simp [hpos]
      rw [l1, l2]
      conv_lhs => rw [a1, List.take_left, ← a1, a2, List.drop_left]
      simp [Item.text]
    · have hs' : ¬ upper i.name = upper p := hs
      refine ⟨fun hn => ?_, fun x hx => ?_⟩
      · simp only [find, if_neg hs] at hn
        simp only [named, spans, List.find?_cons, hs', decide_false]
        exact ih1 hn
      · simp only [find, if_neg hs] at hx
        obtain ⟨m, h1, h2, h3⟩ := ih2 x hx
        refine ⟨m, ?_, h2, ?_⟩
        · simp only [named, spans, List.find?_cons, hs', decide_false]
          exact h1
        · simp only [assign, if_neg hs, List.flatMap_cons]
          have : pre ++ (i.text ++ List.flatMap Item.text l) ++ post = pre ++ i.text ++ List.flatMap Item.text l ++ post := by simp
          rw [this, h3]; simp

end Lemmas.ParamRegex
