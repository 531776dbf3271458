import Verif.Lemmas.CompLine
import Verif.Props.Params
import Verif.Spec.CompLine

/-! From the specification of a line to what the matching lemmas need. -/
namespace Lemmas.CompLine
open Model.Regex Lemmas.Regex Model.CompLine
open Model.PyStr (isSpace)
open Spec.ParamList (Item Word Blank textOf Separated)
open Spec.CompLine (Line Shape ItemsOk)

variable (w : WordClass)

def itemsText (l : List (Str × Item)) : Str := l.flatMap (fun i => i.1 ++ i.2.text)

theorem run_star (p : Char → Bool) (a : Str) (ha : ∀ c ∈ a, p c = true) : ∀ (s : St) (r : Str), s.rest = a ++ r → Run (.star (.cls p)) s (adv s a r) := by
  induction a with
  | nil =>
    intro s r hs
    have : adv s [] r = s := by cases s; simp_all [adv]
    rw [this]; exact .stop
  | cons c a ih =>
    intro s r hs
    have h1 := ih (fun x hx => ha x (by simp [hx])) (s.next (a ++ r)) r rfl
    have e : adv (s.next (a ++ r)) a r = adv s (c :: a) r := by simp [adv, St.next, Nat.add_comm, Nat.add_left_comm]
    rw [e] at h1
    exact .once (.cls (by simpa using hs) (ha c (by simp))) (by simp [St.next, hs]) h1

theorem run_plus (p : Char → Bool) (a : Str) (hne : a ≠ []) (ha : ∀ c ∈ a, p c = true) (s : St) (r : Str) (hs : s.rest = a ++ r) :
    Run (plus (.cls p)) s (adv s a r) := by
  obtain ⟨c, a', rfl⟩ := List.exists_cons_of_ne_nil hne
  have h1 := run_star p a' (fun x hx => ha x (by simp [hx])) (s.next (a' ++ r)) r rfl
  have e : adv (s.next (a' ++ r)) a' r = adv s (c :: a') r := by simp [adv, St.next, Nat.add_comm, Nat.add_left_comm]
  rw [e] at h1
  exact .seq (.cls (by simpa using hs) (ha c (by simp))) h1

theorem adv_adv (s : St) (a b r r' : Str) : adv (adv s a r') b r = adv s (a ++ b) r := by simp [adv, Nat.add_assoc]

/-- The values part of an item. -/
def valuesText (it : Item) : Str := it.first ++ it.more.flatMap (fun bv => ',' :: bv.1 ++ bv.2)

theorem item_text (it : Item) : it.text = it.name ++ (it.b1 ++ ('=' :: (it.b2 ++ valuesText it))) := by simp [Item.text, valuesText]

def ItemOk (word : Char → Bool) (i : Str × Item) : Prop :=
  (i.1 ≠ [] ∧ Blank i.1) ∧ i.2.Ok ∧ (∀ c ∈ i.2.name, word c = true) ∧
    ∀ v ∈ i.2.values, ∀ c ∈ v, word c = true ∨ c ∈ ['{', '}', '(', ')', '-', '+', '*', '/', '%', '.', ',', '\'', '"'] ∨ isSpace c = true

theorem values_chars (i : Str × Item) (h : ItemOk w.word i) : ∀ c ∈ valuesText i.2, paramChar w c = true := by
  have h4 := h.2.2.2
  have key : ∀ c, (w.word c = true ∨ c ∈ ['{', '}', '(', ')', '-', '+', '*', '/', '%', '.', ',', '\'', '"'] ∨ isSpace c = true) → paramChar w c = true := by
    intro c hc
    unfold paramChar
    rcases hc with h | h | h
    · simp [h]
    · have : (['{', '}', '(', ')', '-', '+', '*', '/', '%', '.', ',', '\'', '"'] : List Char).contains c = true := by simpa using h
      rw [this]; simp
    · simp [h]
  intro c hc
  simp only [valuesText, List.mem_append, List.mem_flatMap, List.mem_cons] at hc
  rcases hc with h1 | ⟨bv, h1, (rfl | h2) | h2⟩
  · exact key c (h4 _ (by simp [Item.values]) c h1)
  · exact key ',' (.inr (.inl (by simp)))
  · exact key c (.inr (.inr ((h.2.1.more bv h1).1 c h2)))
  · exact key c (h4 bv.2 (by simp only [Item.values, List.mem_cons, List.mem_map]; exact .inr ⟨bv, h1, rfl⟩) c h2)

theorem values_ne (it : Item) (h : it.Ok) : valuesText it ≠ [] := by
  have := Props.Params.word_ne_nil _ h.first
  simp [valuesText, this]

theorem item_strict (i : Str × Item) (h : ItemOk w.word i) (s : St) (r : Str) (hs : s.rest = (i.1 ++ i.2.text) ++ r) :
    Run (strictItem w) s (adv s (i.1 ++ i.2.text) r) := by
  have hv := values_chars w i h
  obtain ⟨⟨h1, h1b⟩, h2, h3, h4⟩ := h
  have hvn := values_ne i.2 h2
  have hnn := Props.Params.word_ne_nil _ h2.name
  rw [item_text]
  rw [item_text] at hs
  have e1 : adv s (i.1 ++ (i.2.name ++ (i.2.b1 ++ '=' :: (i.2.b2 ++ valuesText i.2)))) r =
    adv (adv (adv (adv (adv (adv s i.1 (i.2.name ++ (i.2.b1 ++ ('=' :: (i.2.b2 ++ (valuesText i.2 ++ r)))))) i.2.name (i.2.b1 ++ ('=' :: (i.2.b2 ++ (valuesText i.2 ++ r))))) i.2.b1 ('=' :: (i.2.b2 ++ (valuesText i.2 ++ r)))) ['='] (i.2.b2 ++ (valuesText i.2 ++ r))) i.2.b2 (valuesText i.2 ++ r)) (valuesText i.2) r := by
    simp [adv_adv]
  rw [e1]
  refine .seq (run_plus _ i.1 h1 h1b s _ (by simpa using hs)) (.seq (run_plus _ i.2.name hnn h3 _ _ rfl) (.seq (run_star _ i.2.b1 h2.b1 _ _ rfl)
    (.seq ?_ (.seq (run_star _ i.2.b2 h2.b2 _ _ rfl) (run_plus _ (valuesText i.2) hvn hv _ _ rfl)))))
  exact .cls (c := '=') rfl (by simp)

theorem items_strict (l : List (Str × Item)) (h : ∀ i ∈ l, ItemOk w.word i) : ∀ (s : St) (r : Str), s.rest = itemsText l ++ r →
    Run (.star (strictItem w)) s (adv s (itemsText l) r) := by
  induction l with
  | nil =>
    intro s r hs
    have : adv s (itemsText []) r = s := by cases s; simp_all [adv, itemsText]
    rw [this]; exact .stop
  | cons i l ih =>
    intro s r hs
    have e : itemsText (i :: l) = (i.1 ++ i.2.text) ++ itemsText l := by simp [itemsText]
    rw [e] at hs ⊢
    have h1 := item_strict w i (h i (by simp)) s (itemsText l ++ r) (by simpa using hs)
    have h2 := ih (fun x hx => h x (by simp [hx])) (adv s (i.1 ++ i.2.text) (itemsText l ++ r)) r rfl
    rw [adv_adv] at h2
    refine .once h1 ?_ h2
    have : i.1 ≠ [] := (h i (by simp)).1.1
    have : 0 < i.1.length := List.length_pos_iff.mpr this
    simp [adv, hs]; omega

theorem star_mono {a b : Re} (hab : ∀ s t, Run a s t → Run b s t) {s t : St} (h : Run (.star a) s t) : Run (.star b) s t := by
  generalize hr : Re.star a = r at h
  induction h with
  | stop => exact .stop
  | once h1 h2 h3 _ ih => injection hr with hr; subst hr; exact .once (hab _ _ h1) h2 (ih rfl)
  | _ => simp at hr

theorem items_chars (l : List (Str × Item)) (h : ∀ i ∈ l, ItemOk w.word i) : ∀ c ∈ itemsText l, inParams w c := by
  intro c hc
  simp only [itemsText, List.mem_flatMap] at hc
  obtain ⟨i, hi, hc⟩ := hc
  have hv := values_chars w i (h i hi)
  obtain ⟨⟨h1, h1b⟩, h2, h3, h4⟩ := h i hi
  rw [item_text] at hc
  simp only [List.mem_append, List.mem_cons] at hc
  rcases hc with g | g | g | g | g | g
  · exact .inl (h1b c g)
  · exact .inr (.inl (h3 c g))
  · exact .inl (h2.b1 c g)
  · exact .inr (.inr (.inl g))
  · exact .inl (h2.b2 c g)
  · exact .inr (.inr (.inr (hv c g)))

theorem item_ends (it : Item) (h : it.Ok) : ∀ c, it.text.getLast? = some c → isSpace c = false := by
  intro c hc
  rw [item_text] at hc
  have hne := values_ne it h
  have e : (it.name ++ (it.b1 ++ '=' :: (it.b2 ++ valuesText it))).getLast? = (valuesText it).getLast? := by
    obtain ⟨z, y, e⟩ := List.eq_nil_or_concat (valuesText it) |>.resolve_left hne
    rw [e]
    rw [show it.name ++ (it.b1 ++ '=' :: (it.b2 ++ (z.concat y))) = (it.name ++ (it.b1 ++ '=' :: (it.b2 ++ z))) ++ [y] by simp, List.getLast?_concat]
    simp
  rw [e] at hc
  unfold valuesText at hc
  rcases List.eq_nil_or_concat it.more with e2 | ⟨m, x, e2⟩
  · rw [e2] at hc
    simp at hc
    obtain ⟨_, b, _, hb, _, hb2⟩ := Props.Params.word_ends _ h.first
    rw [hb] at hc; simp at hc; rw [← hc]; exact hb2
  · rw [e2] at hc
    obtain ⟨_, b, _, hb, _, hb2⟩ := Props.Params.word_ends _ (h.more x (by simp [e2])).2
    obtain ⟨z, y, e3⟩ := List.eq_nil_or_concat x.2 |>.resolve_left (Props.Params.word_ne_nil _ (h.more x (by simp [e2])).2)
    rw [e3] at hb
    simp at hb
    have : it.first ++ List.flatMap (fun bv => ',' :: bv.1 ++ bv.2) (m.concat x) = (it.first ++ List.flatMap (fun bv => ',' :: bv.1 ++ bv.2) m ++ ',' :: x.1 ++ z) ++ [y] := by
      simp [e3]
    rw [this, List.getLast?_concat] at hc
    simp at hc
    rw [← hc, hb]; exact hb2

theorem items_ends (l : List (Str × Item)) (h : ∀ i ∈ l, ItemOk w.word i) : ∀ c, (itemsText l).getLast? = some c → isSpace c = false := by
  intro c hc
  rcases List.eq_nil_or_concat l with e | ⟨m, x, e⟩
  · rw [e] at hc; simp [itemsText] at hc
  · have hx := h x (by simp [e])
    have hne : x.2.text ≠ [] := by
      have := values_ne x.2 hx.2.1
      rw [item_text]; simp
    obtain ⟨z, y, e3⟩ := List.eq_nil_or_concat x.2.text |>.resolve_left hne
    have : itemsText l = (itemsText m ++ x.1 ++ z) ++ [y] := by simp [e, itemsText, e3]
    rw [this] at hc
    simp at hc
    exact item_ends x.2 hx.2.1 c (by rw [e3, ← hc]; simp)

theorem items_begin (l : List (Str × Item)) (h : ∀ i ∈ l, ItemOk w.word i) : Begins w (itemsText l) := by
  cases l with
  | nil => exact .inl rfl
  | cons i l =>
    obtain ⟨⟨h1, h1b⟩, h2, h3, h4⟩ := h i (by simp)
    refine .inr ⟨i.1, i.2.name, i.2.b1, i.2.b2 ++ valuesText i.2 ++ itemsText l, ?_, h1, h1b, Props.Params.word_ne_nil _ h2.name, h3, h2.b1⟩
    simp [itemsText, item_text]

theorem items_strictOk (l : List (Str × Item)) (h : ∀ i ∈ l, ItemOk w.word i) : StrictOk w (itemsText l) :=
  ⟨items_strict w l h, items_chars w l h, items_ends w l h, items_begin w l h⟩

theorem items_paramsOk (l : List (Str × Item)) (h : ∀ i ∈ l, ItemOk w.word i) : ParamsOk w (itemsText l) := by
  refine ⟨fun s r hs => star_mono (strict_sub w) (items_strict w l h s r hs), items_chars w l h, items_ends w l h, ?_, ?_⟩
  · intro c hc
    rcases items_begin w l h with e | ⟨g, n, b, r, e, hg, hgs, _⟩
    · rw [e] at hc; simp at hc
    · obtain ⟨y, g', rfl⟩ := List.exists_cons_of_ne_nil hg
      rw [e] at hc; simp at hc
      rw [← hc]; exact hgs y (by simp)
  · intro b0 r0 e0 hh
    rcases items_begin w l h with e | ⟨g, n, b, r, e, hg, hgs, hn, hns, _⟩
    · rw [e] at e0; simp at e0
    · obtain ⟨y, g', rfl⟩ := List.exists_cons_of_ne_nil hg
      obtain ⟨y2, n', rfl⟩ := List.exists_cons_of_ne_nil hn
      rw [e] at e0
      simp at e0
      rw [← e0.2] at hh
      cases g' with
      | nil =>
        simp at hh
        exact (w.not y2 (hns y2 (by simp))).2 (by simp [hh])
      | cons z g' =>
        simp at hh
        have := hgs z (by simp)
        rw [hh] at this
        revert this; decide

/-! ### What the parameters say -/

/-- The same text with each gap counted to the item before it. -/
def shift : List (Str × Item) → Str → List (Item × Str)
  | [], _ => []
  | [i], b => [(i.2, b)]
  | i :: j :: l, b => (i.2, j.1) :: shift (j :: l) b

theorem shift_text (i : Str × Item) (l : List (Str × Item)) (b : Str) : itemsText (i :: l) ++ b = i.1 ++ textOf (shift (i :: l) b) := by
  induction l generalizing i with
  | nil => simp [itemsText, shift, textOf]
  | cons j l ih =>
    have := ih j
    have e : itemsText (i :: j :: l) = i.1 ++ i.2.text ++ itemsText (j :: l) := by simp [itemsText]
    rw [e, List.append_assoc, this]
    simp [shift, textOf]

theorem shift_fst (l : List (Str × Item)) (b : Str) : (shift l b).map Prod.fst = l.map Prod.snd := by
  induction l with
  | nil => rfl
  | cons i l ih => cases l with
    | nil => rfl
    | cons j l => simp only [shift, List.map_cons]; rw [ih]; rfl

theorem shift_sep (l : List (Str × Item)) (h : ∀ i ∈ l, ItemOk w.word i) (b : Str) (hb : Blank b) : Separated (shift l b) := by
  induction l with
  | nil => trivial
  | cons i l ih => cases l with
    | nil => exact ⟨(h i (by simp)).2.1, hb⟩
    | cons j l =>
      have := ih (fun x hx => h x (by simp [hx]))
      have hj := h j (by simp)
      simp only [shift]
      cases hs : shift (j :: l) b with
      | nil => cases l <;> simp [shift] at hs
      | cons y r =>
        rw [hs] at this
        exact ⟨(h i (by simp)).2.1, hj.1.2, hj.1.1, this⟩

variable (numeric : Str → Bool) (shown : Model.Params.PV → Str)
open Model.Params (parseParams put PV)
open Props.Params (valueOf NameOk parse_text)

/-- The dictionary the items stand for. -/
def dictOf (l : List Item) : List (Str × PV) := l.foldl (fun d it => put d it.name (valueOf it)) []

theorem parse_params (l : List (Str × Item)) (hne : l ≠ []) (h : ∀ i ∈ l, ItemOk w.word i) (hn : ∀ i ∈ l, NameOk numeric i.2.name) (b : Str) (hb : Blank b) :
    parseParams numeric shown (itemsText l ++ b) = some (dictOf (l.map Prod.snd)) := by
  obtain ⟨i, l, rfl⟩ := List.exists_cons_of_ne_nil hne
  rw [shift_text, parse_text numeric shown i.1 _ (h i (by simp)).1.2 (shift_sep w _ h b hb)]
  · rw [← shift_fst (i :: l) b, dictOf, List.foldl_map]
  · intro ib hib
    have : ib.1 ∈ (shift (i :: l) b).map Prod.fst := List.mem_map.mpr ⟨ib, hib, rfl⟩
    rw [shift_fst, List.mem_map] at this
    obtain ⟨j, hj, e⟩ := this
    rw [← e]; exact hn j hj

/-- The same without the first blanks. -/
theorem parse_tail (i : Str × Item) (l : List (Str × Item)) (h : ∀ j ∈ i :: l, ItemOk w.word j) (hn : ∀ j ∈ i :: l, NameOk numeric j.2.name) (b : Str) (hb : Blank b) :
    parseParams numeric shown (i.2.text ++ itemsText l ++ b) = some (dictOf ((i :: l).map Prod.snd)) := by
  have e : i.2.text ++ itemsText l ++ b = [] ++ textOf (shift (i :: l) b) := by
    have := shift_text i l b
    have e2 : itemsText (i :: l) ++ b = i.1 ++ (i.2.text ++ itemsText l ++ b) := by simp [itemsText]
    rw [e2] at this
    exact List.append_cancel_left this
  rw [e, parse_text numeric shown [] _ (by intro c hc; simp at hc) (shift_sep w _ h b hb)]
  · rw [← shift_fst (i :: l) b, dictOf, List.foldl_map]
  · intro ib hib
    have : ib.1 ∈ (shift (i :: l) b).map Prod.fst := List.mem_map.mpr ⟨ib, hib, rfl⟩
    rw [shift_fst, List.mem_map] at this
    obtain ⟨j, hj, e⟩ := this
    rw [← e]; exact hn j hj

end Lemmas.CompLine
