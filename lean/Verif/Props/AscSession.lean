import Verif.Lemmas.Qsch
import Verif.Spec.AscSession
import Verif.Props.Asc
import Verif.Props.AscInstr
import Verif.Props.ParamLine
import Verif.Lemmas.Analysis
import Mathlib.Data.List.Induction
import Mathlib.Tactic.Tauto
/-
C106: editing sessions on LTspice schematics (asc_editor.py).
-/
namespace Props.AscSession
open Model.PyStr
open Model.Asc hiding Line step read
open Model.AscSession hiding Str
open Model.ParamRegex (ascSet ascGet ascFind)
open Spec.AscFile hiding Str
open Spec.AscSession hiding Str
open Spec.ParamLine (Dir Line Item update value assign find Same Name NumberLike Value NameChar)
open Props.ParamLine (ascText AscOk)
open Spec.AscInstr (FirstWord Command Simulates AtMostOne comments)

/-! ### Components -/

theorem lookup_modify (r r' : Str) (f : Comp → Comp) (l : List (Str × Comp)) :
    (changeIn r f l).lookup r' = if r' = r then (l.lookup r').map f else l.lookup r' := by
  induction l with
  | nil => simp [changeIn]
  | cons p l ih =>
    obtain ⟨k, c⟩ := p
    by_cases hk : k = r
    · subst hk
      by_cases h : r' = k
      · subst h; simp [changeIn]
      · have : (r' == k) = false := by simpa using h
        simp [changeIn, h, List.lookup, this]
    · simp only [changeIn, if_neg hk]
      by_cases h : r' = k
      · subst h
        simp [List.lookup, hk]
      · have : (r' == k) = false := by simpa using h
        simp only [List.lookup, this]
        exact ih

theorem keys_modify (r : Str) (f : Comp → Comp) (l : List (Str × Comp)) : (changeIn r f l).map Prod.fst = l.map Prod.fst := by
  induction l with
  | nil => rfl
  | cons p l ih =>
    obtain ⟨k, c⟩ := p
    simp only [changeIn]
    split <;> simp [ih]

theorem mem_modify (r : Str) (f : Comp → Comp) (l : List (Str × Comp)) (p : Str × Comp) (h : p ∈ changeIn r f l) : p ∈ l ∨ ∃ c, (r, c) ∈ l ∧ p = (r, f c) := by
  induction l with
  | nil => simp [changeIn] at h
  | cons q l ih =>
    obtain ⟨k, c⟩ := q
    simp only [changeIn] at h
    split at h
    · rename_i hk
      subst hk
      rcases List.mem_cons.1 h with rfl | h
      · exact .inr ⟨c, by simp, rfl⟩
      · exact .inl (by simp [h])
    · rcases List.mem_cons.1 h with rfl | h
      · exact .inl (by simp)
      · rcases ih h with h | ⟨c, h, e⟩
        · exact .inl (by simp [h])
        · exact .inr ⟨c, by simp [h], e⟩

theorem put_wf {s : Sch} (h : WellFormed s) (r : Str) (f : Comp → Comp) (hf : ∀ c, (r, c) ∈ s.comps → CompOk c → (f c).reference = c.reference ∧ CompOk (f c)) : WellFormed (put s r f) := by
  obtain ⟨a, b, d, e, g, i, j, k, l⟩ := h
  refine ⟨a, b, d, e, ?_, ?_, j, k, l⟩
  · intro p hp
    rcases mem_modify r f _ p hp with hp | ⟨c, hc, rfl⟩
    · exact g p hp
    · obtain ⟨g1, g2⟩ := g _ hc
      obtain ⟨f1, f2⟩ := hf c hc g2
      exact ⟨by rw [f1]; exact g1, f2⟩
  · show ((changeIn r f s.comps).map Prod.fst).Nodup
    rw [keys_modify]; exact i

theorem lookup_dset {α : Type} (k k' : Str) (v : α) (l : List (Str × α)) : (dset k v l).lookup k' = if k' = k then some v else l.lookup k' := by
  induction l with
  | nil =>
    by_cases h : k' = k
    · subst h; simp [dset]
    · have : (k' == k) = false := by simpa using h
      simp [dset, List.lookup, this, h]
  | cons p l ih =>
    obtain ⟨k1, w⟩ := p
    simp only [dset]
    by_cases h1 : k1 = k
    · subst h1
      simp only [if_true]
      by_cases h : k' = k1
      · subst h; simp
      · have : (k' == k1) = false := by simpa using h
        simp [List.lookup, this, h]
    · simp only [if_neg h1]
      by_cases h : k' = k1
      · subst h; simp [h1]
      · have : (k' == k1) = false := by simpa using h
        simp only [List.lookup, this]; exact ih

theorem keys_dset {α : Type} (k : Str) (v : α) (l : List (Str × α)) (h : k ∈ l.map Prod.fst) : (dset k v l).map Prod.fst = l.map Prod.fst := by
  induction l with
  | nil => simp at h
  | cons p l ih =>
    obtain ⟨k1, w⟩ := p
    simp only [dset]
    by_cases h1 : k1 = k
    · simp [h1]
    · have : k ∈ l.map Prod.fst := by
        rcases List.mem_cons.1 h with h | h
        · exact absurd h.symm h1
        · exact h
      simp [h1, ih this]

theorem mem_dset {α : Type} (k : Str) (v : α) (l : List (Str × α)) (p : Str × α) (h : p ∈ dset k v l) : p ∈ l ∨ p = (k, v) := by
  induction l with
  | nil => simp only [dset, List.mem_singleton] at h; exact .inr h
  | cons q l ih =>
    obtain ⟨k1, w⟩ := q
    simp only [dset] at h
    split at h
    · rename_i h1
      rcases List.mem_cons.1 h with rfl | h
      · rw [h1]; exact .inr rfl
      · exact .inl (by simp [h])
    · rcases List.mem_cons.1 h with rfl | h
      · exact .inl (by simp)
      · rcases ih h with h | h
        · exact .inl (by simp [h])
        · exact .inr h

theorem known_ok (k : Str) (h : k ∈ known) : Word k ∧ k.head? ≠ some '_' ∧ k ≠ "InstName".toList ∧ upper k ≠ "PREFIX".toList := by
  have : ∀ k ∈ known, (k ≠ [] ∧ ∀ c ∈ k, isSpace c = false) ∧ k.head? ≠ some '_' ∧ k ≠ "InstName".toList ∧ upper k ≠ "PREFIX".toList := by decide +kernel
  exact this k h

theorem setAttr_ok (k v : Str) (c : Comp) (hk : k ∈ known) (hm : k ∈ c.attrs.map Prod.fst) (hv : Savable v) (h : CompOk c) : CompOk (setAttr k v c) := by
  obtain ⟨k1, k2, k3, k4⟩ := known_ok k hk
  refine ⟨h.symbol, h.rot, h.reference, ?_, ?_⟩
  · intro a ha
    rcases mem_dset _ _ _ _ ha with ha | rfl
    · exact h.attrs a ha
    · exact .inr ⟨k, v, rfl, k1, k2, k3, hv.1, hv.2, fun hu => absurd hu k4⟩
  · show ((dset k (.str v) c.attrs).map Prod.fst).Nodup
    rw [keys_dset _ _ _ hm]; exact h.keys

theorem textOf_setAttr (k k' v : Str) (c : Comp) : textOf (setAttr k v c) k' = if k' = k then some v else textOf c k' := by
  unfold textOf setAttr
  simp only [lookup_dset]
  by_cases h : k' = k <;> simp [h]

theorem lookup_filter {α : Type} (l : List (Str × α)) (k : Str) (p : Str × α → Bool) (hn : (l.map Prod.fst).Nodup) : (l.filter p).lookup k = (l.lookup k).bind (fun v => if p (k, v) then some v else none) := by
  induction l with
  | nil => rfl
  | cons q l ih =>
    obtain ⟨k1, w⟩ := q
    simp only [List.map_cons, List.nodup_cons] at hn
    have ih := ih hn.2
    by_cases h : k = k1
    · subst h
      have hno : l.lookup k = none := by
        cases hl : l.lookup k with
        | none => rfl
        | some v => exact absurd (List.mem_map.2 ⟨_, Lemmas.Analysis.mem_of_lookup hl, rfl⟩) hn.1
      rw [hno] at ih
      simp only [List.filter_cons]
      cases hp : p (k, w) with
      | true => simp [hp]
      | false => simpa [hp, ih] using ih
    · have hb : (k == k1) = false := by simpa using h
      simp only [List.filter_cons]
      split
      · simp only [List.lookup, hb, ih]
      · simp only [List.lookup, hb, ih]

theorem textOf_sort (c : Comp) (k : Str) (h : (c.attrs.map Prod.fst).Nodup) : textOf (sortAttrs c) k = textOf c k := by
  unfold textOf sortAttrs
  simp only
  have e : ∀ (a b : List (Str × AttrVal)), (a ++ b).lookup k = (a.lookup k).or (b.lookup k) := by
    intro a b
    induction a with
    | nil => simp
    | cons q a ih =>
      obtain ⟨k1, w⟩ := q
      simp only [List.cons_append, List.lookup]
      split <;> simp [*]
  rw [e, lookup_filter _ _ _ h, lookup_filter _ _ _ h]
  cases c.attrs.lookup k with
  | none => rfl
  | some v => cases v <;> simp [isWindow]

theorem settled_wf {s : Sch} (h : WellFormed s) : WellFormed (settled s) := by
  obtain ⟨a, b, d, e, g, i, j, k, l⟩ := h
  refine ⟨a, b, d, e, ?_, ?_, j, k, l⟩
  · intro p hp
    obtain ⟨q, hq, rfl⟩ := List.mem_map.1 hp
    obtain ⟨g1, g2⟩ := g q hq
    refine ⟨g1, g2.symbol, g2.rot, g2.reference, ?_, ?_⟩
    · intro a ha
      rcases List.mem_append.1 ha with ha | ha <;> exact g2.attrs a (List.mem_filter.1 ha).1
    · show ((q.2.attrs.filter isWindow ++ q.2.attrs.filter (fun a => !isWindow a)).map Prod.fst).Nodup
      have hp : (q.2.attrs.filter isWindow ++ q.2.attrs.filter (fun a => !isWindow a)).Perm q.2.attrs := List.filter_append_perm _ _
      exact (hp.map Prod.fst).nodup_iff.2 g2.keys
  · show ((s.comps.map (fun p => (p.1, sortAttrs p.2))).map Prod.fst).Nodup
    simpa [Function.comp_def] using i

theorem lookup_map (l : List (Str × Comp)) (f : Comp → Comp) (r : Str) : (l.map (fun p => (p.1, f p.2))).lookup r = (l.lookup r).map f := by
  induction l with
  | nil => rfl
  | cons p l ih =>
    simp only [List.map_cons, List.lookup]
    split <;> simp [*]

theorem lookup_remove (l : List (Str × Comp)) (r r' : Str) : (l.filter (fun p => decide (p.1 ≠ r))).lookup r' = if r' = r then none else l.lookup r' := by
  induction l with
  | nil => simp
  | cons p l ih =>
    obtain ⟨k, c⟩ := p
    simp only [List.filter_cons]
    by_cases hk : k = r
    · subst hk
      simp only [ne_eq, not_true_eq_false, decide_false, Bool.false_eq_true, if_false]
      rw [ih]
      by_cases h : r' = k
      · simp [h]
      · have : (r' == k) = false := by simpa using h
        simp [h, List.lookup, this]
    · have hd : decide (k ≠ r) = true := by simpa using hk
      simp only [hd, if_true, List.lookup]
      split
      · rename_i h
        have : r' = k := by simpa using h
        subst this; simp [hk]
      · exact ih

theorem getComp_settled (s : Sch) (r : Str) : getComp (settled s) r = (getComp s r).map sortAttrs := by
  unfold getComp settled
  simp only [lookup_map]
  split <;> rfl

theorem getComp_mem {s : Sch} {r : Str} {c : Comp} (h : getComp s r = some c) : (r, c) ∈ s.comps ∧ ':' ∉ r := by
  unfold getComp at h
  split at h
  · cases h
  · rename_i hr
    exact ⟨Lemmas.Analysis.mem_of_lookup h, hr⟩

theorem getComp_put (s : Sch) (r r' : Str) (f : Comp → Comp) : getComp (put s r f) r' = if r' = r then (getComp s r').map f else getComp s r' := by
  unfold getComp put
  simp only [lookup_modify]
  split
  · split <;> rfl
  · rfl

theorem getComp_same {s s' : Sch} (h : s'.comps = s.comps) (r : Str) : getComp s' r = getComp s r := by unfold getComp; rw [h]

/-! ### Parameters -/

theorem upper_visible (w : Str) (h : upper w = ".PARAM".toList) : ∀ c ∈ w, isSpace c = false := by
  intro c hc
  cases hs : isSpace c with
  | false => rfl
  | true =>
    have hm : c.toUpper ∈ ".PARAM".toList := by rw [← h]; exact List.mem_map_of_mem hc
    by_cases hsm : c.toNat < 128
    · have := Lemmas.PyStr.ascii_ind (P := fun c => isSpace c = true → c.toUpper ∉ ".PARAM".toList) (by decide +kernel) c hsm hs
      exact absurd hm this
    · rw [Lemmas.PyStr.toUpper_big c (by omega)] at hm
      have : ∀ x ∈ ".PARAM".toList, x.toNat < 128 := by decide
      exact absurd (this c hm) hsm

theorem numChar_visible (c : Char) (h : Spec.ParamLine.NumChar c) : isSpace c = false := by
  unfold Spec.ParamLine.NumChar at h
  rcases h with h | rfl | rfl | rfl | rfl | rfl
  · have : c.toNat < 128 := by
      simp only [Char.isDigit, Bool.and_eq_true, decide_eq_true_eq] at h
      have := h.2
      have h9 : c.toNat ≤ 57 := this
      omega
    exact Lemmas.PyStr.ascii_ind (P := fun c => c.isDigit = true → isSpace c = false) (by decide +kernel) c this h
  all_goals decide

theorem alpha_visible (c : Char) (h : c.isAlpha = true) : isSpace c = false := by
  have : c.toNat < 128 := by
    simp only [Char.isAlpha, Char.isUpper, Char.isLower, Bool.or_eq_true, Bool.and_eq_true, decide_eq_true_eq] at h
    rcases h with h | h
    · have : c.toNat ≤ 90 := h.2
      omega
    · have : c.toNat ≤ 122 := h.2
      omega
  exact Lemmas.PyStr.ascii_ind (P := fun c => c.isAlpha = true → isSpace c = false) (by decide +kernel) c this h

/-- A value ends with something to see. -/
theorem value_last (v : Str) (h : Value v) : ∃ c, v.getLast? = some c ∧ isSpace c = false := by
  rcases h with ⟨b, rfl, _⟩ | ⟨b, rfl, _⟩ | ⟨n, u, rfl, hn, h1, h2⟩
  · exact ⟨'}', List.getLast?_concat (l := '{' :: b), by decide⟩
  · exact ⟨'"', List.getLast?_concat (l := '"' :: b), by decide⟩
  · have hne : n ++ u ≠ [] := by simp [hn]
    refine ⟨(n ++ u).getLast hne, List.getLast?_eq_some_getLast hne, ?_⟩
    have hm := List.getLast_mem hne
    rcases List.mem_append.1 hm with hm | hm
    · exact numChar_visible _ (h1 _ hm)
    · rcases h2 _ hm with h | h
      · exact alpha_visible _ h
      · rw [h]; decide

theorem items_last : ∀ (l : List Item), (∀ i ∈ l, i.Ok) → l ≠ [] → ∃ c, (l.flatMap Item.text).getLast? = some c ∧ isSpace c = false := by
  intro l
  induction l using List.reverseRecOn with
  | nil => intro _ h; exact absurd rfl h
  | append_singleton a i ih =>
    intro h _
    obtain ⟨c, h1, h2⟩ := value_last i.value (h i (by simp)).2.2.2.2
    refine ⟨c, ?_, h2⟩
    rw [List.flatMap_append, List.getLast?_append]
    simp only [List.flatMap_cons, List.flatMap_nil, List.append_nil, Item.text]
    rw [List.getLast?_append, h1]; rfl

/-- A directive with parameters has no white space at its ends if its rest has none. -/
theorem line_trimmed (l : Line) (h : l.Ok) (hl : ∀ c, l.tail.getLast? = some c → isSpace c = false) (hn : '\n' ∉ l.text) : Trimmed l.text := by
  have hkw := upper_visible l.kw h.keyword
  have hne : l.kw ≠ [] := by intro e; have := h.keyword; rw [e] at this; exact absurd this (by decide)
  refine ⟨?_, ?_, hn⟩
  · intro c hc
    unfold Line.text at hc
    obtain ⟨k, kw, hk⟩ := List.exists_cons_of_ne_nil hne
    rw [hk] at hc
    simp only [List.cons_append, List.head?_cons, Option.some.injEq] at hc
    subst hc
    exact hkw _ (by rw [hk]; simp)
  · intro c hc
    unfold Line.text at hc
    rw [List.getLast?_append] at hc
    cases ht : l.tail.getLast? with
    | some d =>
      rw [ht] at hc
      simp only [Option.some_or, Option.some.injEq] at hc
      exact hl c (by rw [ht, hc])
    | none =>
      rw [ht, Option.none_or, List.getLast?_append] at hc
      by_cases hi : l.items = []
      · rw [hi] at hc
        simp only [List.flatMap_nil, List.getLast?_nil, Option.none_or] at hc
        exact hkw c (List.mem_of_getLast? hc)
      · obtain ⟨d, h1, h2⟩ := items_last l.items h.items hi
        rw [h1] at hc
        simp only [Option.some_or, Option.some.injEq] at hc
        rw [← hc]; exact h2

theorem assign_chars (p v : Str) (l : List Item) (c : Char) (h : c ∈ (assign p v l).flatMap Item.text) : c ∈ l.flatMap Item.text ∨ c ∈ v := by
  induction l with
  | nil => simp [assign] at h
  | cons i l ih =>
    simp only [assign] at h
    split at h
    · simp only [List.flatMap_cons, Item.text, List.mem_append] at h ⊢
      tauto
    · simp only [List.flatMap_cons, List.mem_append] at h ⊢
      rcases h with h | h
      · exact .inl (.inl h)
      · rcases ih h with h | h
        · exact .inl (.inr h)
        · exact .inr h

theorem assigned_trimmed (p v : Str) (hv : Value v) (hn : '\n' ∉ v) (l : Line) (h : l.Ok) (ht : Trimmed l.text) : Trimmed ({ l with items := assign p v l.items } : Line).text := by
  refine line_trimmed _ (Props.ParamLine.line_assign_ok p v hv l h) ?_ ?_
  · intro c hc
    apply ht.2.1 c
    show (l.kw ++ l.items.flatMap Item.text ++ l.tail).getLast? = some c
    have hc : l.tail.getLast? = some c := hc
    rw [List.getLast?_append, hc]; rfl
  · intro hm
    simp only [Line.text, List.mem_append] at hm
    have hno := ht.2.2
    simp only [Line.text, List.mem_append, not_or] at hno
    rcases hm with (hm | hm) | hm
    · exact hno.1.1 hm
    · rcases assign_chars p v _ _ hm with hm | hm
      · exact hno.1.2 hm
      · exact hn hm
    · exact hno.2 hm

theorem mem_update (p v : Str) (d : List (Dir Text)) (x : Dir Text) (h : x ∈ update p v d) :
    x ∈ d ∨ ∃ t l, Dir.params t l ∈ d ∧ x = .params t { l with items := assign p v l.items } := by
  induction d with
  | nil => simp [update] at h
  | cons e d ih =>
    cases e with
    | other a =>
      simp only [update] at h
      rcases List.mem_cons.1 h with rfl | h
      · exact .inl (by simp)
      · rcases ih h with h | ⟨t, l, h, e⟩
        · exact .inl (by simp [h])
        · exact .inr ⟨t, l, by simp [h], e⟩
    | params a l =>
      simp only [update] at h
      split at h
      · rcases List.mem_cons.1 h with rfl | h
        · exact .inr ⟨a, l, by simp, rfl⟩
        · exact .inl (by simp [h])
      · rcases List.mem_cons.1 h with rfl | h
        · exact .inl (by simp)
        · rcases ih h with h | ⟨t, l, h, e⟩
          · exact .inl (by simp [h])
          · exact .inr ⟨t, l, by simp [h], e⟩

/-- The document of the directives. -/
theorem document (ts : List Text) (h : ∀ t ∈ ts, ParamText t → ∃ l : Line, l.Ok ∧ l.text = t.text) : ∃ d : List (Dir Text), ts = d.map ascText ∧ ∀ x ∈ d, AscOk x := by
  induction ts with
  | nil => exact ⟨[], rfl, by simp⟩
  | cons t ts ih =>
    obtain ⟨d, h1, h2⟩ := ih (fun x hx => h x (by simp [hx]))
    by_cases hp : ParamText t
    · obtain ⟨l, hl, e⟩ := h t (by simp) hp
      refine ⟨.params t l :: d, by simp [ascText, e, h1], ?_⟩
      intro x hx
      rcases List.mem_cons.1 hx with rfl | hx
      · exact ⟨hp.1, hl⟩
      · exact h2 x hx
    · refine ⟨.other t :: d, by simp [ascText, h1], ?_⟩
      intro x hx
      rcases List.mem_cons.1 hx with rfl | hx
      · show t.type = .comment ∨ _
        by_cases hc : t.type = .comment
        · exact .inl hc
        · exact .inr (fun h => hp ⟨hc, h⟩)
      · exact h2 x hx

theorem document_ok (s : Sch) (d : List (Dir Text)) (h1 : s.directives = d.map ascText) (h2 : ∀ x ∈ d, AscOk x) : ParamsOk s := by
  intro t ht hp
  rw [h1] at ht
  obtain ⟨x, hx, rfl⟩ := List.mem_map.1 ht
  have := h2 x hx
  cases x with
  | other t =>
    rcases this with hc | hc
    · exact absurd hc hp.1
    · exact absurd hp.2 hc
  | params t l => exact ⟨l, this.2, rfl⟩

/-- What set_parameter does to a sheet. -/
theorem param_step {s s' : Sch} (p v : Str) (hp : ParamsOk s) (ha : ArgsOk (.param p v)) (h : step s (.param p v) = some s') :
    ∃ d d' : List (Dir Text), s.directives = d.map ascText ∧ (∀ x ∈ d, AscOk x) ∧ s' = { s with directives := d'.map ascText } ∧ (∀ x ∈ d', AscOk x) ∧
      ∃ x y, d' = Props.ParamLine.ascSetDoc d x y p v := by
  obtain ⟨d, h1, h2⟩ := document s.directives hp
  obtain ⟨a1, a2, a3, a4⟩ := ha
  refine ⟨d, ?_⟩
  simp only [step] at h
  by_cases hn : value p d = none
  · obtain ⟨g1, g2⟩ := Props.ParamLine.C60_set_new s d h1 h2 p v hn
    cases ht : Model.AscInstr.textSpace s with
    | error e => rw [g2 e ht] at h; simp [Except.toOption] at h
    | ok q =>
      obtain ⟨x, y⟩ := q
      rw [g1 x y ht] at h
      simp only [Except.toOption, Option.map_some, Option.some.injEq] at h
      refine ⟨Props.ParamLine.ascSetDoc d x y p v, h1, h2, ?_, ?_, x, y, rfl⟩
      · rw [← h]
        simp [Props.ParamLine.ascSetDoc, hn, ascText, Props.ParamLine.newLine_text]
      · simp only [Props.ParamLine.ascSetDoc, if_pos hn]
        intro z hz
        rcases List.mem_append.1 hz with m | m
        · exact h2 z m
        · rw [List.mem_singleton.1 m]
          exact ⟨by simp, Props.ParamLine.newLine_ok p v a1 a2 a3⟩
  · rw [Props.ParamLine.C60_set s d h1 h2 p v hn] at h
    simp only [Except.toOption, Option.map_some, Option.some.injEq] at h
    refine ⟨Props.ParamLine.ascSetDoc d 0 0 p v, h1, h2, ?_, ?_, 0, 0, rfl⟩
    · rw [← h]; simp [Props.ParamLine.ascSetDoc, hn]
    · simp only [Props.ParamLine.ascSetDoc, if_neg hn]
      exact Props.ParamLine.update_ok p v a3 d h2

theorem nameChar_visible (c : Char) (h : NameChar c) : c ≠ '\n' := by
  rintro rfl
  rcases h with h | h | h <;> revert h <;> decide

theorem param_directives {d : List (Dir Text)} {x y : Int} {p v : Str} (hd : ∀ t ∈ d.map ascText, DirectiveOk t) (h2 : ∀ z ∈ d, AscOk z) (ha : ArgsOk (.param p v)) :
    ∀ t ∈ (Props.ParamLine.ascSetDoc d x y p v).map ascText, DirectiveOk t := by
  obtain ⟨a1, a2, a3, a4⟩ := ha
  intro t ht
  obtain ⟨z, hz, rfl⟩ := List.mem_map.1 ht
  unfold Props.ParamLine.ascSetDoc at hz
  split at hz
  · rcases List.mem_append.1 hz with hz | hz
    · exact hd _ (List.mem_map_of_mem hz)
    · rw [List.mem_singleton.1 hz]
      refine ⟨.inl rfl, ⟨.inl rfl, fun e => by cases e⟩, rfl, (by decide : (0 : Int) ≤ 2), ?_⟩
      refine line_trimmed _ (Props.ParamLine.newLine_ok p v a1 a2 a3) (by simp [Props.ParamLine.newLine]) ?_
      rw [Props.ParamLine.newLine_text]
      intro hm
      rcases List.mem_append.1 hm with hm | hm
      · rcases List.mem_append.1 hm with hm | hm
        · exact absurd hm (by decide)
        · exact nameChar_visible _ (a1.2 _ hm) rfl
      · rcases List.mem_cons.1 hm with hm | hm
        · exact absurd hm (by decide)
        · exact a4 hm
  · rcases mem_update p v d z hz with hy | ⟨t, l, hy, rfl⟩
    · exact hd _ (List.mem_map_of_mem hy)
    · have h0 := hd _ (List.mem_map_of_mem hy)
      obtain ⟨_, hl⟩ := h2 _ hy
      exact ⟨h0.type, h0.aligned, h0.angle, h0.size, assigned_trimmed p v a3 a4 l hl h0.text⟩

/-- What one directive says about a parameter. -/
def told (q : Str) (t : Text) : Option Str :=
  if t.type = .comment then none else if Model.ParamRegex.isParam t.text then (Model.ParamRegex.named q (Model.ParamRegex.findIter t.text)).map (fun m => m.value) else none

theorem get_cons (q : Str) (t : Text) (l : List Text) : (ascFind q (t :: l)).map (fun r => r.2.value) = (told q t).or ((ascFind q l).map (fun r => r.2.value)) := by
  have e : ((ascFind q l).map (fun r => (r.1 + 1, r.2))).map (fun r => r.2.value) = (ascFind q l).map (fun r => r.2.value) := by
    cases ascFind q l <;> rfl
  simp only [ascFind, told]
  split
  · simp only [Option.none_or]; exact e
  · split
    · split
      · rename_i m hm
        rw [hm]; simp
      · rename_i hm
        rw [hm]; simp only [Option.map_none, Option.none_or]; exact e
    · simp only [Option.none_or]; exact e

theorem get_told (q : Str) (l : List Text) : (ascFind q l).map (fun r => r.2.value) = l.findSome? (told q) := by
  induction l with
  | nil => rfl
  | cons t l ih =>
    rw [get_cons, ih, List.findSome?_cons]
    cases told q t <;> rfl

theorem told_none (q : Str) (t : Text) (h : ¬ ParamText t) : told q t = none := by
  unfold told
  split
  · rfl
  · rename_i hc
    rw [if_neg]
    rw [Props.ParamLine.isParam_iff]
    exact fun hp => h ⟨hc, hp⟩

/-! ### One call -/

theorem strip_savable {v : Str} (h1 : strip v ≠ []) (h2 : '\n' ∉ v) : Savable (strip v) := ⟨h1, Lemmas.Asc.trimmed_strip h2⟩

theorem add_apply {s s' : Sch} {i : Str} (h : step s (.instruct i) = some s') : s' = Model.AscInstr.apply s (.add i) := by
  simp only [step] at h
  unfold Model.AscInstr.apply
  simp only
  cases ha : Model.AscInstr.add s i with
  | error e => rw [ha] at h; cases h
  | ok p => rw [ha] at h; simpa [Except.toOption] using h.symm

theorem reopen_step {s s' : Sch} (hw : WellFormed s) (h : step s .reopen = some s') : s' = settled s := by
  simp only [step] at h
  obtain ⟨txt, h1, h2⟩ := Lemmas.AscFile.read_save hw
  rw [h1] at h
  simp only [Option.bind_some, h2, Option.some.injEq] at h
  exact h.symm

theorem value_cases {s s' : Sch} {r v : Str} (h : step s (.value r v) = some s') :
    ∃ c, getComp s r = some c ∧ "Value".toList ∈ c.attrs.map Prod.fst ∧ s' = put s r (setAttr "Value".toList v) := by
  simp only [step] at h
  unfold setValue at h
  generalize "Value".toList = k at h ⊢
  cases hc : getComp s r with
  | none => rw [hc] at h; cases h
  | some c =>
    rw [hc] at h
    simp only [Option.bind_some] at h
    split at h
    · rename_i hm
      exact ⟨c, rfl, hm, (Option.some.inj h).symm⟩
    · cases h

theorem attr_cases {s s' : Sch} {r k v : Str} (h : step s (.attr r k v) = some s') :
    ∃ c, getComp s r = some c ∧ (k ∈ known ∧ k ∈ c.attrs.map Prod.fst) ∧ s' = put s r (setAttr k (strip v)) := by
  simp only [step] at h
  unfold setKnown at h
  cases hc : getComp s r with
  | none => rw [hc] at h; cases h
  | some c =>
    rw [hc] at h
    simp only [Option.bind_some] at h
    split at h
    · rename_i hm
      exact ⟨c, rfl, hm, (Option.some.inj h).symm⟩
    · cases h

theorem model_cases {s s' : Sch} {r m : Str} (h : step s (.model r m) = some s') : ∃ c, getComp s r = some c ∧ s' = put s r (fun c => { c with symbol := m }) := by
  simp only [step] at h
  unfold setModel at h
  cases hc : getComp s r with
  | none => rw [hc] at h; cases h
  | some c => rw [hc] at h; exact ⟨c, rfl, (Option.some.inj h).symm⟩

theorem move_cases {s s' : Sch} {r : Str} {x y : Int} {rot : Nat} (h : step s (.move r x y rot) = some s') :
    ∃ c, getComp s r = some c ∧ s' = put s r (fun c => { c with x := x, y := y, rot := rot }) := by
  simp only [step] at h
  unfold Model.AscSession.move at h
  cases hc : getComp s r with
  | none => rw [hc] at h; cases h
  | some c => rw [hc] at h; exact ⟨c, rfl, (Option.some.inj h).symm⟩

theorem remove_cases {s s' : Sch} {r : Str} (h : step s (.remove r) = some s') :
    ∃ c, getComp s r = some c ∧ s' = { s with comps := s.comps.filter (fun p => decide (p.1 ≠ r)) } := by
  simp only [step] at h
  unfold removeComp at h
  cases hc : getComp s r with
  | none => rw [hc] at h; cases h
  | some c => rw [hc] at h; exact ⟨c, rfl, (Option.some.inj h).symm⟩

theorem scale_cases {s s' : Sch} {fx fy : Int → Int} (h : step s (.scale fx fy) = some s') : s.ports = [] ∧ s' = scale fx fy s := by
  simp only [step] at h
  split at h
  · rename_i hp
    exact ⟨hp, (Option.some.inj h).symm⟩
  · cases h

theorem nodup_key {s : Sch} (h : (s.comps.map Prod.fst).Nodup) {r : Str} {c d : Comp} (h1 : (r, c) ∈ s.comps) (h2 : (r, d) ∈ s.comps) : c = d := by
  have := Lemmas.Analysis.lookup_of_mem h h1
  rw [Lemmas.Analysis.lookup_of_mem h h2] at this
  exact (Option.some.inj this).symm

/-- set_parameter touches the directives only. -/
theorem ascSet_frame {s s' : Sch} {p v : Str} (h : step s (.param p v) = some s') : s' = { s with directives := s'.directives } := by
  simp only [step] at h
  unfold ascSet at h
  cases hf : ascFind p s.directives with
  | some q =>
    obtain ⟨i, m⟩ := q
    rw [hf] at h
    simp only [Except.toOption, Option.map_some, Option.some.injEq] at h
    rw [← h]
  | none =>
    rw [hf] at h
    simp only at h
    cases ht : Model.AscInstr.textSpace s with
    | error e => rw [ht] at h; cases h
    | ok q =>
      rw [ht] at h
      simp only [Except.toOption, Option.map_some, Option.some.injEq] at h
      rw [← h]

theorem apply_frame (s : Sch) (op : Model.AscInstr.Op) : Model.AscInstr.apply s op = { s with directives := (Model.AscInstr.apply s op).directives } := by
  have h := Props.AscInstr.C47_frame s [op]
  simp only [List.foldl_cons, List.foldl_nil, Sch.mk.injEq] at h
  obtain ⟨a, b, c, d, e, f, _, g, i⟩ := h
  generalize Model.AscInstr.apply s op = t at *
  cases t; cases s
  simp only at a b c d e f g i
  simp only [a, b, c, d, e, f, g, i]

theorem directives_wf {s : Sch} (h : WellFormed s) (ds : List Text) (hd : ∀ t ∈ ds, DirectiveOk t) : WellFormed { s with directives := ds } := by
  obtain ⟨a, b, d, e, g, i, j, k, l⟩ := h
  exact ⟨a, b, d, e, g, i, hd, k, l⟩

theorem step_wf {s s' : Sch} {op : Op} (hw : WellFormed s) (hp : ParamsOk s) (ha : ArgsOk op) (h : step s op = some s') : WellFormed s' := by
  cases op with
  | value r v =>
    obtain ⟨c, hc, hm, rfl⟩ := value_cases h
    refine put_wf hw r _ (fun d hd hok => ⟨rfl, setAttr_ok _ _ _ (by decide +kernel) ?_ ha hok⟩)
    rw [nodup_key hw.refs hd (getComp_mem hc).1]; exact hm
  | attr r k v =>
    obtain ⟨c, hc, hm, rfl⟩ := attr_cases h
    refine put_wf hw r _ (fun d hd hok => ⟨rfl, setAttr_ok _ _ _ hm.1 ?_ (strip_savable ha.1 ha.2) hok⟩)
    rw [nodup_key hw.refs hd (getComp_mem hc).1]; exact hm.2
  | model r m =>
    obtain ⟨c, hc, rfl⟩ := model_cases h
    exact put_wf hw r _ (fun d hd hok => ⟨rfl, ha, hok.rot, hok.reference, hok.attrs, hok.keys⟩)
  | move r x y rot =>
    obtain ⟨c, hc, rfl⟩ := move_cases h
    exact put_wf hw r _ (fun d hd hok => ⟨rfl, hok.symbol, ha, hok.reference, hok.attrs, hok.keys⟩)
  | remove r =>
    obtain ⟨c, hc, rfl⟩ := remove_cases h
    obtain ⟨a, b, d, e, g, i, j, k, l⟩ := hw
    exact ⟨a, b, d, e, fun p hq => g p (List.mem_filter.1 hq).1, i.sublist (List.filter_sublist.map _), j, k, l⟩
  | param p v =>
    obtain ⟨d, d', h1, h2, rfl, h4, x, y, rfl⟩ := param_step p v hp ha h
    refine directives_wf hw _ (param_directives ?_ h2 ha)
    rw [← h1]; exact hw.directives
  | instruct i =>
    rw [add_apply h]
    exact (Props.AscInstr.C47_still_saveable s hw [.add i] (by simpa [ArgsOk] using ha)).1
  | drop i =>
    simp only [step, Option.some.injEq] at h
    rw [← h]
    exact (Props.AscInstr.C47_still_saveable s hw [.remove i] (by simp)).1
  | dropAll m =>
    simp only [step, Option.some.injEq] at h
    rw [← h]
    exact (Props.AscInstr.C47_still_saveable s hw [.removeX m] (by simp)).1
  | scale fx fy =>
    obtain ⟨_, rfl⟩ := scale_cases h
    obtain ⟨a, b, d, e, g, i, j, k, l⟩ := hw
    refine ⟨a, b, ?_, ?_, ?_, ?_, ?_, ?_, ?_⟩
    · intro w hq
      obtain ⟨z, hz, rfl⟩ := List.mem_map.1 hq
      exact d z hz
    · intro w hq
      obtain ⟨z, hz, rfl⟩ := List.mem_map.1 hq
      obtain ⟨e1, e2⟩ := e z hz
      refine ⟨e1, ?_⟩
      rw [e2]
    · intro w hq
      obtain ⟨z, hz, rfl⟩ := List.mem_map.1 hq
      obtain ⟨g1, g2⟩ := g z hz
      exact ⟨g1, g2.symbol, g2.rot, g2.reference, g2.attrs, g2.keys⟩
    · show ((s.comps.map _).map Prod.fst).Nodup
      simpa [Function.comp_def] using i
    · intro w hq
      obtain ⟨z, hz, rfl⟩ := List.mem_map.1 hq
      obtain ⟨j1, j2, j3, j4, j5⟩ := j z hz
      exact ⟨j1, j2, j3, j4, j5⟩
    · intro w hq
      obtain ⟨z, hz, rfl⟩ := List.mem_map.1 hq
      exact k z hz
    · intro w hq
      obtain ⟨z, hz, rfl⟩ := List.mem_map.1 hq
      obtain ⟨l1, l2⟩ := l z hz
      refine ⟨l1, ?_⟩
      simpa using l2
  | reopen =>
    rw [reopen_step hw h]
    exact settled_wf hw

theorem comp_keys {s : Sch} (hw : WellFormed s) {r : Str} {c : Comp} (h : getComp s r = some c) : (c.attrs.map Prod.fst).Nodup := (hw.comps _ (getComp_mem h).1).2.keys

/-- Calls that leave the components alone. -/
theorem getComp_dirs (s : Sch) (ds : List Text) (r : Str) : getComp { s with directives := ds } r = getComp s r := rfl

theorem getComp_scale (s : Sch) (fx fy : Int → Int) (r : Str) : getComp (scale fx fy s) r = (getComp s r).map (fun c => { c with x := fx c.x, y := fy c.y }) := by
  unfold getComp scale
  simp only
  rw [lookup_map s.comps (fun c => { c with x := fx c.x, y := fy c.y })]
  split <;> rfl

theorem getComp_removed (s : Sch) (r r' : Str) : getComp { s with comps := s.comps.filter (fun p => decide (p.1 ≠ r)) } r' = if r' = r then none else getComp s r' := by
  unfold getComp
  simp only [lookup_remove]
  by_cases h : r' = r <;> simp [h]

theorem step_attr {s s' : Sch} {op : Op} (hw : WellFormed s) (h : step s op = some s') (r k : Str) : getAttr s' r k = (attrSaid r k op).getD (getAttr s r k) := by
  unfold getAttr
  cases op with
  | value r' v =>
    obtain ⟨c, hc, hm, rfl⟩ := value_cases h
    rw [getComp_put]
    simp only [attrSaid]
    generalize "Value".toList = vk at *
    by_cases hr : r = r'
    · subst hr
      rw [hc]
      simp only [if_true, Option.map_some, Option.bind_some, textOf_setAttr]
      by_cases hk : k = vk <;> simp [hk]
    · simp [hr, Ne.symm hr]
  | attr r' k' v =>
    obtain ⟨c, hc, hm, rfl⟩ := attr_cases h
    rw [getComp_put]
    simp only [attrSaid]
    by_cases hr : r = r'
    · subst hr
      rw [hc]
      simp only [if_true, Option.map_some, Option.bind_some, textOf_setAttr]
      by_cases hk : k = k'
      · simp [hk]
      · simp [hk, Ne.symm hk]
    · simp [hr, Ne.symm hr]
  | model r' m =>
    obtain ⟨c, hc, rfl⟩ := model_cases h
    rw [getComp_put]
    by_cases hr : r = r'
    · subst hr; rw [hc, if_pos rfl]; rfl
    · simp [hr, attrSaid]
  | move r' x y rot =>
    obtain ⟨c, hc, rfl⟩ := move_cases h
    rw [getComp_put]
    by_cases hr : r = r'
    · subst hr; rw [hc, if_pos rfl]; rfl
    · simp [hr, attrSaid]
  | remove r' =>
    obtain ⟨c, hc, rfl⟩ := remove_cases h
    rw [getComp_removed]
    by_cases hr : r = r'
    · subst hr; simp [attrSaid]
    · simp [hr, Ne.symm hr, attrSaid]
  | param p v => rw [ascSet_frame h]; rfl
  | instruct i => rw [add_apply h, apply_frame]; rfl
  | drop i =>
    simp only [step, Option.some.injEq] at h
    rw [← h, show (Model.AscInstr.remove s i).1 = Model.AscInstr.apply s (.remove i) from rfl, apply_frame]; rfl
  | dropAll m =>
    simp only [step, Option.some.injEq] at h
    rw [← h, show (Model.AscInstr.removeX s m).1 = Model.AscInstr.apply s (.removeX m) from rfl, apply_frame]; rfl
  | scale fx fy =>
    obtain ⟨_, rfl⟩ := scale_cases h
    rw [getComp_scale]
    cases getComp s r <;> rfl
  | reopen =>
    rw [reopen_step hw h, getComp_settled]
    cases hc : getComp s r with
    | none => rfl
    | some c =>
      simp only [Option.map_some, Option.bind_some, attrSaid, Option.getD_none]
      exact textOf_sort c k (comp_keys hw hc)

theorem step_symbol {s s' : Sch} {op : Op} (hw : WellFormed s) (h : step s op = some s') (r : Str) : getSymbol s' r = (symbolSaid r op).getD (getSymbol s r) := by
  unfold getSymbol
  cases op with
  | value r' v =>
    obtain ⟨c, hc, hm, rfl⟩ := value_cases h
    rw [getComp_put]
    by_cases hr : r = r'
    · subst hr; rw [hc, if_pos rfl]; rfl
    · simp [hr, symbolSaid]
  | attr r' k' v =>
    obtain ⟨c, hc, hm, rfl⟩ := attr_cases h
    rw [getComp_put]
    by_cases hr : r = r'
    · subst hr; rw [hc, if_pos rfl]; rfl
    · simp [hr, symbolSaid]
  | model r' m =>
    obtain ⟨c, hc, rfl⟩ := model_cases h
    rw [getComp_put]
    by_cases hr : r = r'
    · subst hr; rw [hc]; simp [symbolSaid]
    · simp [hr, Ne.symm hr, symbolSaid]
  | move r' x y rot =>
    obtain ⟨c, hc, rfl⟩ := move_cases h
    rw [getComp_put]
    by_cases hr : r = r'
    · subst hr; rw [hc, if_pos rfl]; rfl
    · simp [hr, symbolSaid]
  | remove r' =>
    obtain ⟨c, hc, rfl⟩ := remove_cases h
    rw [getComp_removed]
    by_cases hr : r = r'
    · subst hr; simp [symbolSaid]
    · simp [hr, Ne.symm hr, symbolSaid]
  | param p v => rw [ascSet_frame h]; rfl
  | instruct i => rw [add_apply h, apply_frame]; rfl
  | drop i =>
    simp only [step, Option.some.injEq] at h
    rw [← h, show (Model.AscInstr.remove s i).1 = Model.AscInstr.apply s (.remove i) from rfl, apply_frame]; rfl
  | dropAll m =>
    simp only [step, Option.some.injEq] at h
    rw [← h, show (Model.AscInstr.removeX s m).1 = Model.AscInstr.apply s (.removeX m) from rfl, apply_frame]; rfl
  | scale fx fy =>
    obtain ⟨_, rfl⟩ := scale_cases h
    rw [getComp_scale]
    cases getComp s r <;> rfl
  | reopen =>
    rw [reopen_step hw h, getComp_settled]
    cases getComp s r <;> rfl

theorem step_place {s s' : Sch} {op : Op} (hw : WellFormed s) (h : step s op = some s') (r : Str) : getPlace s' r = placeAfter r (getPlace s r) op := by
  unfold getPlace
  cases op with
  | value r' v =>
    obtain ⟨c, hc, hm, rfl⟩ := value_cases h
    rw [getComp_put]
    by_cases hr : r = r'
    · subst hr; rw [hc, if_pos rfl]; rfl
    · simp [hr, placeAfter]
  | attr r' k' v =>
    obtain ⟨c, hc, hm, rfl⟩ := attr_cases h
    rw [getComp_put]
    by_cases hr : r = r'
    · subst hr; rw [hc, if_pos rfl]; rfl
    · simp [hr, placeAfter]
  | model r' m =>
    obtain ⟨c, hc, rfl⟩ := model_cases h
    rw [getComp_put]
    by_cases hr : r = r'
    · subst hr; rw [hc, if_pos rfl]; rfl
    · simp [hr, placeAfter]
  | move r' x y rot =>
    obtain ⟨c, hc, rfl⟩ := move_cases h
    rw [getComp_put]
    by_cases hr : r = r'
    · subst hr; rw [hc]; simp [placeAfter]
    · simp [hr, Ne.symm hr, placeAfter]
  | remove r' =>
    obtain ⟨c, hc, rfl⟩ := remove_cases h
    rw [getComp_removed]
    by_cases hr : r = r'
    · subst hr; simp [placeAfter]
    · simp [hr, Ne.symm hr, placeAfter]
  | param p v => rw [ascSet_frame h]; rfl
  | instruct i => rw [add_apply h, apply_frame]; rfl
  | drop i =>
    simp only [step, Option.some.injEq] at h
    rw [← h, show (Model.AscInstr.remove s i).1 = Model.AscInstr.apply s (.remove i) from rfl, apply_frame]; rfl
  | dropAll m =>
    simp only [step, Option.some.injEq] at h
    rw [← h, show (Model.AscInstr.removeX s m).1 = Model.AscInstr.apply s (.removeX m) from rfl, apply_frame]; rfl
  | scale fx fy =>
    obtain ⟨_, rfl⟩ := scale_cases h
    rw [getComp_scale]
    cases getComp s r <;> rfl
  | reopen =>
    rw [reopen_step hw h, getComp_settled]
    cases getComp s r <;> rfl

/-! #### the parameters -/

theorem get_dirs (s : Sch) (q : Str) : ascGet s q = s.directives.findSome? (told q) := get_told q s.directives

theorem told_drop (q : Str) (a b : List Text) (t : Text) (h : ¬ ParamText t) : (a ++ t :: b).findSome? (told q) = (a ++ b).findSome? (told q) := by
  simp only [List.findSome?_append, List.findSome?_cons, told_none q t h]

theorem told_filter (q : Str) (l : List Text) (p : Text → Bool) (h : ∀ t ∈ l, p t = false → ¬ ParamText t) : (l.filter p).findSome? (told q) = l.findSome? (told q) := by
  induction l with
  | nil => rfl
  | cons t l ih =>
    have ih := ih (fun x hx => h x (by simp [hx]))
    by_cases hp : p t = true
    · simp only [List.filter_cons, hp, if_true, List.findSome?_cons, ih]
    · have hp : p t = false := by simpa using hp
      have hn := h t (by simp) hp
      simp only [List.filter_cons, hp, Bool.false_eq_true, if_false, List.findSome?_cons, told_none q t hn, ih]

/-- The first word of a text with parameters starts with .PARAM. -/
theorem param_first {i : Str} {t : Text} (h : ParamText { t with text := strip i }) : ∃ w, FirstWord i w ∧ ".PARAM".toList <+: upper w := by
  obtain ⟨_, w, r, e, hw⟩ := h
  have hv := upper_visible w hw
  have hne : w ≠ [] := by intro h0; rw [h0] at hw; exact absurd hw (by decide)
  have e : strip i = w ++ r := e
  have hs : strip i = w ++ r.takeWhile (fun c => !isSpace c) ++ r.dropWhile (fun c => !isSpace c) := by
    rw [List.append_assoc, List.takeWhile_append_dropWhile, e]
  have hf : FirstWord (strip i) (w ++ r.takeWhile (fun c => !isSpace c)) := by
    refine ⟨[], r.dropWhile (fun c => !isSpace c), by rw [List.nil_append]; exact hs, by simp, ⟨by simp [hne], ?_⟩, ?_⟩
    · intro c hc
      rcases List.mem_append.1 hc with hc | hc
      · exact hv c hc
      · simpa using List.mem_takeWhile_imp hc
    · cases hd : r.dropWhile (fun c => !isSpace c) with
      | nil => exact .inl rfl
      | cons c l =>
        refine .inr ⟨c, l, rfl, ?_⟩
        have := List.head_dropWhile_not (p := fun c => !isSpace c) (l := r) (by simp [hd])
        simpa [hd] using this
  obtain ⟨l, hl⟩ := Props.AscInstr.words_first hf
  rw [Props.AscInstr.words_strip] at hl
  refine ⟨_, Props.AscInstr.first_words hl, ?_⟩
  rw [show upper (w ++ r.takeWhile (fun c => !isSpace c)) = upper w ++ upper (r.takeWhile (fun c => !isSpace c)) from List.map_append, hw]
  exact List.prefix_append _ _

/-- What add_instruction puts on the sheet has no parameters. -/
theorem added_plain {s s' : Sch} {i : Str} (h : step s (.instruct i) = some s') (t : Text) : ¬ ParamText { t with text := strip i } := by
  intro hp
  have := (Props.AscInstr.C47_add_refused s i).1 (param_first hp)
  simp only [step, this] at h
  cases h

/-- An analysis command has no parameters. -/
theorem simulates_plain {t : Text} (h : Simulates t) : ¬ ParamText t := by
  rintro ⟨_, w, r, e, hw⟩
  obtain ⟨_, v, hf, a, ha, hv⟩ := h
  obtain ⟨l, hl⟩ := Props.AscInstr.words_first hf
  have hvis := upper_visible w hw
  have hne : w ≠ [] := by intro h0; rw [h0] at hw; exact absurd hw (by decide)
  obtain ⟨b, r', e', hb, hvw, hr'⟩ := hf
  have hb0 : b = [] := by
    cases b with
    | nil => rfl
    | cons c b =>
      obtain ⟨d, w', rfl⟩ := List.exists_cons_of_ne_nil hne
      rw [e] at e'
      simp only [List.cons_append, List.cons.injEq] at e'
      have := hb c (by simp)
      rw [← e'.1, hvis d (by simp)] at this
      cases this
  subst hb0
  rw [e, List.nil_append] at e'
  have hl : upper w <+: upper v ∨ upper v <+: upper w := by
    rcases List.append_eq_append_iff.1 e' with ⟨x, h1, _⟩ | ⟨x, h1, _⟩
    · left; rw [h1]; exact ⟨upper x, List.map_append.symm⟩
    · right; rw [h1]; exact ⟨upper x, List.map_append.symm⟩
  rw [hw, hv] at hl
  have : ∀ a ∈ Spec.Directive.analyses, ¬ (".PARAM".toList <+: a.toList ∨ a.toList <+: ".PARAM".toList) := by decide +kernel
  exact this a ha hl

theorem paramsOk_sub {s : Sch} {ds : List Text} (hp : ParamsOk s) (h : ∀ t ∈ ds, t ∈ s.directives ∨ ¬ ParamText t) : ParamsOk { s with directives := ds } := by
  intro t ht hpt
  rcases h t ht with h | h
  · exact hp t h hpt
  · exact absurd hpt h

theorem step_param {s s' : Sch} {op : Op} (hw : WellFormed s) (hp : ParamsOk s) (ha : ArgsOk op) (h : step s op = some s') :
    ParamsOk s' ∧ (Keeps s op → ∀ q, ascGet s' q = ((paramSaid q op).map some).getD (ascGet s q)) := by
  cases op with
  | value r v => obtain ⟨c, hc, hm, rfl⟩ := value_cases h; exact ⟨hp, fun _ q => rfl⟩
  | attr r k v => obtain ⟨c, hc, hm, rfl⟩ := attr_cases h; exact ⟨hp, fun _ q => rfl⟩
  | model r m => obtain ⟨c, hc, rfl⟩ := model_cases h; exact ⟨hp, fun _ q => rfl⟩
  | move r x y rot => obtain ⟨c, hc, rfl⟩ := move_cases h; exact ⟨hp, fun _ q => rfl⟩
  | remove r => obtain ⟨c, hc, rfl⟩ := remove_cases h; exact ⟨hp, fun _ q => rfl⟩
  | param p v =>
    obtain ⟨d, d', h1, h2, rfl, h4, x, y, rfl⟩ := param_step p v hp ha h
    refine ⟨document_ok _ _ rfl h4, fun hk q => ?_⟩
    rw [Props.ParamLine.C60_get _ _ rfl h4, Props.ParamLine.C60_get s d h1 h2, Props.ParamLine.value_set]
    simp only [paramSaid]
    split <;> rfl
  | instruct i =>
    have hpl := added_plain h
    simp only [step] at h
    cases hadd : Model.AscInstr.add s i with
    | error e => rw [hadd] at h; cases h
    | ok q =>
      obtain ⟨s1, log⟩ := q
      rw [hadd] at h
      simp only [Except.toOption, Option.map_some, Option.some.injEq] at h
      subst h
      have key : (∃ (a b : List Text) (t : Text), s.directives = a ++ t :: b ∧ Simulates t ∧ s1 = { s with directives := a ++ { t with text := strip i } :: b }) ∨
          ∃ x y : Int, s1 = { s with directives := s.directives ++ [{ x, y, text := strip i, size := 2, type := .directive }] } := by
        by_cases hi : Command i
        · rcases Props.AscInstr.C47_add_command s s1 i log hi hadd with ⟨a, b, t, e1, _, e3, e4, _⟩ | ⟨_, x, y, e, _⟩
          · exact .inl ⟨a, b, t, e1, e3, e4⟩
          · exact .inr ⟨x, y, e⟩
        · obtain ⟨x, y, e, _⟩ := Props.AscInstr.C47_add_other s s1 i log hi hadd
          exact .inr ⟨x, y, e⟩
      rcases key with ⟨a, b, t, e1, e2, rfl⟩ | ⟨x, y, rfl⟩
      · refine ⟨paramsOk_sub hp ?_, fun hk q => ?_⟩
        · intro u hu
          rcases List.mem_append.1 hu with hu | hu
          · left; rw [e1]; simp [hu]
          · rcases List.mem_cons.1 hu with rfl | hu
            · exact .inr (hpl t)
            · left; rw [e1]; simp [hu]
        · rw [get_dirs, get_dirs]
          show (a ++ _ :: b).findSome? (told q) = s.directives.findSome? (told q)
          rw [told_drop q a b _ (hpl t), e1, told_drop q a b t (simulates_plain e2)]
      · have hnew := hpl { x, y, text := strip i, size := 2, type := .directive }
        refine ⟨paramsOk_sub hp ?_, fun hk q => ?_⟩
        · intro u hu
          rcases List.mem_append.1 hu with hu | hu
          · exact .inl hu
          · rw [List.mem_singleton.1 hu]; exact .inr hnew
        · rw [get_dirs, get_dirs]
          show (s.directives ++ [_]).findSome? (told q) = s.directives.findSome? (told q)
          rw [told_drop q s.directives [] _ hnew, List.append_nil]
  | drop i =>
    simp only [step, Option.some.injEq] at h
    subst h
    rcases Props.AscInstr.C47_remove s i with ⟨a, b, t, e1, e2, e3, e4, e5⟩ | ⟨_, e⟩
    · rw [e5]
      refine ⟨paramsOk_sub hp (fun u hu => .inl ?_), fun hk q => ?_⟩
      · rw [e1]
        rcases List.mem_append.1 hu with hu | hu <;> simp [hu]
      · rw [get_dirs, get_dirs]
        show (a ++ b).findSome? (told q) = s.directives.findSome? (told q)
        rw [e1, told_drop q a b t (hk t (by rw [e1]; simp) e3)]
    · rw [e]; exact ⟨hp, fun _ q => rfl⟩
  | dropAll m =>
    simp only [step, Option.some.injEq] at h
    rw [← h, (Props.AscInstr.C47_removeX s m).1]
    refine ⟨paramsOk_sub hp (fun u hu => .inl (List.mem_filter.1 hu).1), fun hk q => ?_⟩
    rw [get_dirs, get_dirs]
    apply told_filter
    intro t ht hf hpt
    simp only [Bool.or_eq_false_iff, Bool.not_eq_false'] at hf
    exact hk t ht hf.2 hpt
  | scale fx fy =>
    obtain ⟨_, rfl⟩ := scale_cases h
    refine ⟨?_, fun hk q => ?_⟩
    · intro t ht hpt
      obtain ⟨u, hu, rfl⟩ := List.mem_map.1 ht
      exact hp u hu hpt
    · rw [get_dirs, get_dirs]
      show (s.directives.map _).findSome? (told q) = s.directives.findSome? (told q)
      rw [List.findSome?_map]
      rfl
  | reopen => rw [reopen_step hw h]; exact ⟨hp, fun _ q => rfl⟩

/-! ### The whole session -/

theorem run_cons {s s' : Sch} {op : Op} {ops : List Op} (h : run s (op :: ops) = some s') : ∃ t, step s op = some t ∧ run t ops = some s' := by
  simp only [run] at h
  cases hs : step s op with
  | none => rw [hs] at h; cases h
  | some t => rw [hs] at h; exact ⟨t, rfl, h⟩

theorem run_wf {s s' : Sch} {ops : List Op} (hw : WellFormed s) (hp : ParamsOk s) (ha : ∀ op ∈ ops, ArgsOk op) (h : run s ops = some s') : WellFormed s' ∧ ParamsOk s' := by
  induction ops generalizing s with
  | nil => simp only [run, Option.some.injEq] at h; rw [← h]; exact ⟨hw, hp⟩
  | cons op ops ih =>
    obtain ⟨t, h1, h2⟩ := run_cons h
    exact ih (step_wf hw hp (ha op (by simp)) h1) (step_param hw hp (ha op (by simp)) h1).1 (fun o ho => ha o (by simp [ho])) h2

theorem last_cons {α : Type} (said : Op → Option α) (op : Op) (ops : List Op) : last said (op :: ops) = (last said ops).or (said op) := by
  simp only [last, List.reverse_cons, List.findSome?_append, List.findSome?_cons, List.findSome?_nil]
  cases said op <;> rfl

theorem getD_or {α : Type} (a b : Option α) (x : α) : (a.or b).getD x = a.getD (b.getD x) := by cases a <;> rfl

/-- Every attribute of every component: what the last call about it said, otherwise what it was. -/
theorem run_attr {s s' : Sch} {ops : List Op} (hw : WellFormed s) (hp : ParamsOk s) (ha : ∀ op ∈ ops, ArgsOk op) (h : run s ops = some s') (r k : Str) :
    getAttr s' r k = (last (attrSaid r k) ops).getD (getAttr s r k) := by
  induction ops generalizing s with
  | nil => simp only [run, Option.some.injEq] at h; rw [← h]; rfl
  | cons op ops ih =>
    obtain ⟨t, h1, h2⟩ := run_cons h
    rw [ih (step_wf hw hp (ha op (by simp)) h1) (step_param hw hp (ha op (by simp)) h1).1 (fun o ho => ha o (by simp [ho])) h2, step_attr hw h1, last_cons, getD_or]

theorem run_symbol {s s' : Sch} {ops : List Op} (hw : WellFormed s) (hp : ParamsOk s) (ha : ∀ op ∈ ops, ArgsOk op) (h : run s ops = some s') (r : Str) :
    getSymbol s' r = (last (symbolSaid r) ops).getD (getSymbol s r) := by
  induction ops generalizing s with
  | nil => simp only [run, Option.some.injEq] at h; rw [← h]; rfl
  | cons op ops ih =>
    obtain ⟨t, h1, h2⟩ := run_cons h
    rw [ih (step_wf hw hp (ha op (by simp)) h1) (step_param hw hp (ha op (by simp)) h1).1 (fun o ho => ha o (by simp [ho])) h2, step_symbol hw h1, last_cons, getD_or]

theorem run_place {s s' : Sch} {ops : List Op} (hw : WellFormed s) (hp : ParamsOk s) (ha : ∀ op ∈ ops, ArgsOk op) (h : run s ops = some s') (r : Str) :
    getPlace s' r = ops.foldl (placeAfter r) (getPlace s r) := by
  induction ops generalizing s with
  | nil => simp only [run, Option.some.injEq] at h; rw [← h]; rfl
  | cons op ops ih =>
    obtain ⟨t, h1, h2⟩ := run_cons h
    rw [ih (step_wf hw hp (ha op (by simp)) h1) (step_param hw hp (ha op (by simp)) h1).1 (fun o ho => ha o (by simp [ho])) h2, step_place hw h1, List.foldl_cons]

theorem run_param {s s' : Sch} {ops : List Op} (hw : WellFormed s) (hp : ParamsOk s) (ha : ∀ op ∈ ops, ArgsOk op) (hk : KeepsAll s ops) (h : run s ops = some s') (q : Str) :
    ascGet s' q = ((last (paramSaid q) ops).map some).getD (ascGet s q) := by
  induction ops generalizing s with
  | nil => simp only [run, Option.some.injEq] at h; rw [← h]; rfl
  | cons op ops ih =>
    obtain ⟨t, h1, h2⟩ := run_cons h
    rw [ih (step_wf hw hp (ha op (by simp)) h1) (step_param hw hp (ha op (by simp)) h1).1 (fun o ho => ha o (by simp [ho])) (hk.2 t h1) h2,
      (step_param hw hp (ha op (by simp)) h1).2 hk.1, last_cons]
    cases last (paramSaid q) ops <;> rfl

theorem getAttr_settled {s : Sch} (hw : WellFormed s) (r k : Str) : getAttr (settled s) r k = getAttr s r k := by
  unfold getAttr
  rw [getComp_settled]
  cases hc : getComp s r with
  | none => rfl
  | some c =>
    simp only [Option.map_some, Option.bind_some]
    exact textOf_sort c k (comp_keys hw hc)

theorem getSymbol_settled (s : Sch) (r : Str) : getSymbol (settled s) r = getSymbol s r := by
  unfold getSymbol
  rw [getComp_settled]
  cases getComp s r <;> rfl

theorem getPlace_settled (s : Sch) (r : Str) : getPlace (settled s) r = getPlace s r := by
  unfold getPlace
  rw [getComp_settled]
  cases getComp s r <;> rfl

/-- A session on a schematic that can be saved: the sheet at the end can be saved, and the saved file shows for every component its attributes, symbol and
position as the calls about it left them. -/
theorem C106_session (s s' : Sch) (ops : List Op) (hw : WellFormed s) (hp : ParamsOk s) (ha : ∀ op ∈ ops, ArgsOk op) (h : run s ops = some s') :
    ∃ txt s'', save s' = some txt ∧ Model.Asc.read txt = some s'' ∧ WellFormed s'' ∧
      (∀ r k, getAttr s'' r k = (last (attrSaid r k) ops).getD (getAttr s r k)) ∧
      (∀ r, getSymbol s'' r = (last (symbolSaid r) ops).getD (getSymbol s r)) ∧
      ∀ r, getPlace s'' r = ops.foldl (placeAfter r) (getPlace s r) := by
  have hw' := (run_wf hw hp ha h).1
  obtain ⟨txt, h1, h2⟩ := Lemmas.AscFile.read_save hw'
  refine ⟨txt, _, h1, h2, settled_wf hw', ?_, ?_, ?_⟩
  · intro r k; rw [getAttr_settled hw', run_attr hw hp ha h]
  · intro r; rw [getSymbol_settled, run_symbol hw hp ha h]
  · intro r; rw [getPlace_settled, run_place hw hp ha h]

theorem getValue_joined (s : Sch) (r : Str) : getValue s r = joined (getAttr s r "Value".toList) (getAttr s r "Value2".toList) := by
  unfold getValue getAttr
  generalize "Value".toList = a
  generalize "Value2".toList = b
  cases getComp s r with
  | none => rfl
  | some c =>
    simp only [Option.bind_some]
    cases textOf c a <;> cases textOf c b <;> rfl

/-- What get_component_value shows of the saved file. -/
theorem C106_value (s s' : Sch) (ops : List Op) (hw : WellFormed s) (hp : ParamsOk s) (ha : ∀ op ∈ ops, ArgsOk op) (h : run s ops = some s') :
    ∃ txt s'', save s' = some txt ∧ Model.Asc.read txt = some s'' ∧
      ∀ r, getValue s'' r = joined ((last (attrSaid r "Value".toList) ops).getD (getAttr s r "Value".toList)) ((last (attrSaid r "Value2".toList) ops).getD (getAttr s r "Value2".toList)) := by
  obtain ⟨txt, s'', h1, h2, _, h3, _⟩ := C106_session s s' ops hw hp ha h
  refine ⟨txt, s'', h1, h2, fun r => ?_⟩
  rw [getValue_joined, h3, h3]

/-- … and every parameter. -/
theorem C106_params (s s' : Sch) (ops : List Op) (hw : WellFormed s) (hp : ParamsOk s) (ha : ∀ op ∈ ops, ArgsOk op) (hk : KeepsAll s ops) (h : run s ops = some s') :
    ∃ txt s'', save s' = some txt ∧ Model.Asc.read txt = some s'' ∧ ParamsOk s'' ∧ ∀ q, ascGet s'' q = ((last (paramSaid q) ops).map some).getD (ascGet s q) := by
  have hw' := run_wf hw hp ha h
  obtain ⟨txt, h1, h2⟩ := Lemmas.AscFile.read_save hw'.1
  exact ⟨txt, _, h1, h2, hw'.2, fun q => run_param hw hp ha hk h q⟩

/-- From file to file. -/
theorem C106_files (txt : Str) (s s' : Sch) (ops : List Op) (hr : Model.Asc.read txt = some s) (hn : Named s) (hp : ParamsOk s) (ha : ∀ op ∈ ops, ArgsOk op)
    (hk : KeepsAll s ops) (h : run s ops = some s') :
    ∃ txt' s'', save s' = some txt' ∧ Model.Asc.read txt' = some s'' ∧
      (∀ r k, getAttr s'' r k = (last (attrSaid r k) ops).getD (getAttr s r k)) ∧
      ∀ q, ascGet s'' q = ((last (paramSaid q) ops).map some).getD (ascGet s q) := by
  have hw := Lemmas.AscLoad.loaded_wellFormed (Lemmas.AscLoad.read_loaded hr) hn
  obtain ⟨t1, s1, a1, a2, _, a3, _⟩ := C106_session s s' ops hw hp ha h
  obtain ⟨t2, s2, b1, b2, _, b3⟩ := C106_params s s' ops hw hp ha hk h
  rw [a1] at b1
  obtain rfl := Option.some.inj b1
  rw [a2] at b2
  obtain rfl := Option.some.inj b2
  exact ⟨t1, s1, a1, a2, a3, b3⟩

/-! #### nothing else -/

/-- The components that a call takes away. -/
theorem step_refs {s s' : Sch} {op : Op} (hw : WellFormed s) (h : step s op = some s') : s'.comps.map Prod.fst = (s.comps.map Prod.fst).filter (fun r => decide (¬ Removes r op)) := by
  have all : (s.comps.map Prod.fst).filter (fun _ => true) = s.comps.map Prod.fst := List.filter_eq_self.2 (fun _ _ => rfl)
  cases op with
  | value r v =>
    obtain ⟨c, hc, hm, rfl⟩ := value_cases h
    simp only [Removes, not_false_eq_true, decide_true, all]; exact keys_modify r _ _
  | attr r k v =>
    obtain ⟨c, hc, hm, rfl⟩ := attr_cases h
    simp only [Removes, not_false_eq_true, decide_true, all]; exact keys_modify r _ _
  | model r m =>
    obtain ⟨c, hc, rfl⟩ := model_cases h
    simp only [Removes, not_false_eq_true, decide_true, all]; exact keys_modify r _ _
  | move r x y rot =>
    obtain ⟨c, hc, rfl⟩ := move_cases h
    simp only [Removes, not_false_eq_true, decide_true, all]; exact keys_modify r _ _
  | remove r =>
    obtain ⟨c, hc, rfl⟩ := remove_cases h
    simp only [Removes, List.filter_map, Function.comp_def]
    rfl
  | param p v => rw [ascSet_frame h]; simp only [Removes, not_false_eq_true, decide_true, all]
  | instruct i => rw [add_apply h, apply_frame]; simp only [Removes, not_false_eq_true, decide_true, all]
  | drop i =>
    simp only [step, Option.some.injEq] at h
    rw [← h, show (Model.AscInstr.remove s i).1 = Model.AscInstr.apply s (.remove i) from rfl, apply_frame]
    simp only [Removes, not_false_eq_true, decide_true, all]
  | dropAll m =>
    simp only [step, Option.some.injEq] at h
    rw [← h, show (Model.AscInstr.removeX s m).1 = Model.AscInstr.apply s (.removeX m) from rfl, apply_frame]
    simp only [Removes, not_false_eq_true, decide_true, all]
  | scale fx fy =>
    obtain ⟨_, rfl⟩ := scale_cases h
    simp only [Removes, not_false_eq_true, decide_true, all, scale, List.map_map, Function.comp_def]
  | reopen =>
    rw [reopen_step hw h]
    simp only [Removes, not_false_eq_true, decide_true, all, settled, List.map_map, Function.comp_def]

/-- The components of the saved file are those there at the start, in the same order, without the removed ones. -/
theorem C106_components (s s' : Sch) (ops : List Op) (hw : WellFormed s) (hp : ParamsOk s) (ha : ∀ op ∈ ops, ArgsOk op) (h : run s ops = some s') :
    ∃ txt s'', save s' = some txt ∧ Model.Asc.read txt = some s'' ∧
      s''.comps.map Prod.fst = (s.comps.map Prod.fst).filter (fun r => decide (∀ op ∈ ops, ¬ Removes r op)) := by
  obtain ⟨txt, h1, h2⟩ := Lemmas.AscFile.read_save (run_wf hw hp ha h).1
  refine ⟨txt, _, h1, h2, ?_⟩
  have e : (settled s').comps.map Prod.fst = s'.comps.map Prod.fst := by simp [settled, Function.comp_def]
  rw [e]
  clear e h1 h2
  induction ops generalizing s with
  | nil => simp only [run, Option.some.injEq] at h; rw [← h]; exact (List.filter_eq_self.2 (by simp)).symm
  | cons op ops ih =>
    obtain ⟨t, g1, g2⟩ := run_cons h
    rw [ih t (step_wf hw hp (ha op (by simp)) g1) (step_param hw hp (ha op (by simp)) g1).1 (fun o ho => ha o (by simp [ho])) g2, step_refs hw g1, List.filter_filter]
    apply List.filter_congr
    intro r _
    simp only [List.mem_cons, forall_eq_or_imp, Bool.decide_and]
    rw [Bool.and_comm]

theorem step_frame {s s' : Sch} {op : Op} (hw : WellFormed s) (hs : ∀ fx fy, op ≠ .scale fx fy) (h : step s op = some s') : drawing s' = drawing s := by
  cases op with
  | value r v => obtain ⟨c, hc, hm, rfl⟩ := value_cases h; rfl
  | attr r k v => obtain ⟨c, hc, hm, rfl⟩ := attr_cases h; rfl
  | model r m => obtain ⟨c, hc, rfl⟩ := model_cases h; rfl
  | move r x y rot => obtain ⟨c, hc, rfl⟩ := move_cases h; rfl
  | remove r => obtain ⟨c, hc, rfl⟩ := remove_cases h; rfl
  | param p v => rw [ascSet_frame h]; rfl
  | instruct i => rw [add_apply h, apply_frame]; rfl
  | drop i =>
    simp only [step, Option.some.injEq] at h
    rw [← h, show (Model.AscInstr.remove s i).1 = Model.AscInstr.apply s (.remove i) from rfl, apply_frame]; rfl
  | dropAll m =>
    simp only [step, Option.some.injEq] at h
    rw [← h, show (Model.AscInstr.removeX s m).1 = Model.AscInstr.apply s (.removeX m) from rfl, apply_frame]; rfl
  | scale fx fy => exact absurd rfl (hs fx fy)
  | reopen => rw [reopen_step hw h]; rfl

theorem param_comments {s s' : Sch} {p v : Str} (h : step s (.param p v) = some s') : comments s'.directives = comments s.directives := by
  simp only [step] at h
  unfold ascSet at h
  cases hf : ascFind p s.directives with
  | some q =>
    obtain ⟨i, m⟩ := q
    rw [hf] at h
    simp only [Except.toOption, Option.map_some, Option.some.injEq] at h
    rw [← h]
    clear h
    simp only
    have hc : ∀ (l : List Text) (i : Nat) (m : Model.ParamRegex.Match) (f : Text → Text), (∀ t, (f t).type = t.type) → ascFind p l = some (i, m) → comments (l.modify i f) = comments l := by
      intro l
      induction l with
      | nil => intro i m f _ h; cases h
      | cons t l ih =>
        intro i m f hft h
        simp only [ascFind] at h
        have tail : ∀ o : Option (Nat × Model.ParamRegex.Match), o = ascFind p l → o.map (fun r => (r.1 + 1, r.2)) = some (i, m) → comments ((t :: l).modify i f) = comments (t :: l) := by
          intro o ho hm
          cases o with
          | none => cases hm
          | some r =>
            simp only [Option.map_some, Option.some.injEq, Prod.mk.injEq] at hm
            obtain ⟨rfl, rfl⟩ := hm
            have := ih r.1 r.2 f hft ho.symm
            simp only [List.modify_succ_cons, comments, List.filter_cons] at this ⊢
            rw [this]
        split at h
        · exact tail _ rfl h
        · rename_i hnc
          split at h
          · split at h
            · simp only [Option.some.injEq, Prod.mk.injEq] at h
              obtain ⟨rfl, rfl⟩ := h
              have h1 : (t.type == Model.Asc.TextType.comment) = false := by simpa using hnc
              simp [comments, hft, h1]
            · exact tail _ rfl h
          · exact tail _ rfl h
    exact hc _ _ _ _ (fun t => rfl) hf
  | none =>
    rw [hf] at h
    simp only at h
    cases ht : Model.AscInstr.textSpace s with
    | error e => rw [ht] at h; cases h
    | ok q =>
      rw [ht] at h
      simp only [Except.toOption, Option.map_some, Option.some.injEq] at h
      rw [← h]
      simp [comments]

theorem step_comments {s s' : Sch} {op : Op} (hw : WellFormed s) (hs : ∀ fx fy, op ≠ .scale fx fy) (h : step s op = some s') : comments s'.directives = comments s.directives := by
  cases op with
  | value r v => obtain ⟨c, hc, hm, rfl⟩ := value_cases h; rfl
  | attr r k v => obtain ⟨c, hc, hm, rfl⟩ := attr_cases h; rfl
  | model r m => obtain ⟨c, hc, rfl⟩ := model_cases h; rfl
  | move r x y rot => obtain ⟨c, hc, rfl⟩ := move_cases h; rfl
  | remove r => obtain ⟨c, hc, rfl⟩ := remove_cases h; rfl
  | param p v => exact param_comments h
  | instruct i => rw [add_apply h]; exact Props.AscInstr.C47_comments s [.add i]
  | drop i =>
    simp only [step, Option.some.injEq] at h
    rw [← h]; exact Props.AscInstr.C47_comments s [.remove i]
  | dropAll m =>
    simp only [step, Option.some.injEq] at h
    rw [← h]; exact Props.AscInstr.C47_comments s [.removeX m]
  | scale fx fy => exact absurd rfl (hs fx fy)
  | reopen => rw [reopen_step hw h]; rfl

/-- When nothing is scaled: the wires, the labels, the drawing and the comments in the saved file are those there at the start. -/
theorem C106_frame (s s' : Sch) (ops : List Op) (hw : WellFormed s) (hp : ParamsOk s) (ha : ∀ op ∈ ops, ArgsOk op) (hs : ∀ op ∈ ops, ∀ fx fy, op ≠ .scale fx fy) (h : run s ops = some s') :
    ∃ txt s'', save s' = some txt ∧ Model.Asc.read txt = some s'' ∧ drawing s'' = drawing s ∧ comments s''.directives = comments s.directives := by
  obtain ⟨txt, h1, h2⟩ := Lemmas.AscFile.read_save (run_wf hw hp ha h).1
  refine ⟨txt, _, h1, h2, ?_⟩
  show drawing s' = drawing s ∧ comments s'.directives = comments s.directives
  clear h1 h2
  induction ops generalizing s with
  | nil => simp only [run, Option.some.injEq] at h; rw [← h]; exact ⟨rfl, rfl⟩
  | cons op ops ih =>
    obtain ⟨t, g1, g2⟩ := run_cons h
    obtain ⟨e1, e2⟩ := ih t (step_wf hw hp (ha op (by simp)) g1) (step_param hw hp (ha op (by simp)) g1).1 (fun o ho => ha o (by simp [ho])) (fun o ho => hs o (by simp [ho])) g2
    exact ⟨e1.trans (step_frame hw (hs op (by simp)) g1), e2.trans (step_comments hw (hs op (by simp)) g1)⟩

/-! #### one analysis -/

theorem params_plain {a : Text} {l : Line} (h : AscOk (.params a l)) : ¬ Simulates (ascText (.params a l)) := fun hs =>
  simulates_plain hs ⟨h.1, l.kw, l.items.flatMap Item.text ++ l.tail, by simp [ascText, Line.text], h.2.keyword⟩

theorem update_sims (p v : Str) (d : List (Dir Text)) (h : ∀ x ∈ d, AscOk x) (hv : Value v) (hd : (d.map ascText).Pairwise (fun t u => ¬ (Simulates t ∧ Simulates u))) :
    ((update p v d).map ascText).Pairwise (fun t u => ¬ (Simulates t ∧ Simulates u)) := by
  have back : ∀ (d : List (Dir Text)), (∀ x ∈ d, AscOk x) → ∀ u ∈ (update p v d).map ascText, Simulates u → u ∈ d.map ascText := by
    intro d h u hu hs
    obtain ⟨z, hz, rfl⟩ := List.mem_map.1 hu
    have hz' := Props.ParamLine.update_ok p v hv d h z hz
    rcases mem_update p v d z hz with hz | ⟨t, l, _, rfl⟩
    · exact List.mem_map_of_mem hz
    · exact absurd hs (params_plain hz')
  induction d with
  | nil => simp [update]
  | cons e d ih =>
    have hd' := List.pairwise_cons.1 hd
    have ih := ih (fun x hx => h x (by simp [hx])) hd'.2
    cases e with
    | other a =>
      simp only [update, List.map_cons]
      refine List.pairwise_cons.2 ⟨?_, ih⟩
      intro u hu hh
      exact hd'.1 u (back d (fun x hx => h x (by simp [hx])) u hu hh.2) hh
    | params a l =>
      simp only [update]
      have hl := h (.params a l) (by simp)
      split
      · refine List.pairwise_cons.2 ⟨?_, hd'.2⟩
        intro u _ hh
        exact params_plain (a := a) ⟨hl.1, Props.ParamLine.line_assign_ok p v hv l hl.2⟩ hh.1
      · refine List.pairwise_cons.2 ⟨?_, ih⟩
        intro u _ hh
        exact params_plain hl hh.1

theorem step_one {s s' : Sch} {op : Op} (hw : WellFormed s) (hp : ParamsOk s) (ha : ArgsOk op) (hone : AtMostOne s.directives) (h : step s op = some s') : AtMostOne s'.directives := by
  cases op with
  | value r v => obtain ⟨c, hc, hm, rfl⟩ := value_cases h; exact hone
  | attr r k v => obtain ⟨c, hc, hm, rfl⟩ := attr_cases h; exact hone
  | model r m => obtain ⟨c, hc, rfl⟩ := model_cases h; exact hone
  | move r x y rot => obtain ⟨c, hc, rfl⟩ := move_cases h; exact hone
  | remove r => obtain ⟨c, hc, rfl⟩ := remove_cases h; exact hone
  | param p v =>
    obtain ⟨d, d', h1, h2, rfl, h4, x, y, rfl⟩ := param_step p v hp ha h
    rw [Props.AscInstr.atMostOne_iff] at hone ⊢
    rw [h1] at hone
    show ((Props.ParamLine.ascSetDoc d x y p v).map ascText).Pairwise _
    unfold Props.ParamLine.ascSetDoc at h4 ⊢
    split
    · rename_i hn
      rw [if_pos hn] at h4
      rw [List.map_append, List.pairwise_append]
      refine ⟨hone, List.pairwise_singleton _ _, ?_⟩
      intro t _ u hu hh
      obtain rfl := List.mem_singleton.1 hu
      exact params_plain (h4 _ (by simp)) hh.2
    · exact update_sims p v d h2 ha.2.2.1 hone
  | instruct i => rw [add_apply h]; exact Props.AscInstr.C47_at_most_one s hone [.add i]
  | drop i =>
    simp only [step, Option.some.injEq] at h
    rw [← h]; exact Props.AscInstr.C47_at_most_one s hone [.remove i]
  | dropAll m =>
    simp only [step, Option.some.injEq] at h
    rw [← h]; exact Props.AscInstr.C47_at_most_one s hone [.removeX m]
  | scale fx fy =>
    obtain ⟨_, rfl⟩ := scale_cases h
    rw [Props.AscInstr.atMostOne_iff] at hone ⊢
    exact List.pairwise_map.2 hone
  | reopen => rw [reopen_step hw h]; exact hone

/-- A sheet with at most one analysis command ends with at most one. -/
theorem C106_one_analysis (s s' : Sch) (ops : List Op) (hw : WellFormed s) (hp : ParamsOk s) (ha : ∀ op ∈ ops, ArgsOk op) (hone : AtMostOne s.directives) (h : run s ops = some s') :
    ∃ txt s'', save s' = some txt ∧ Model.Asc.read txt = some s'' ∧ AtMostOne s''.directives := by
  obtain ⟨txt, h1, h2⟩ := Lemmas.AscFile.read_save (run_wf hw hp ha h).1
  refine ⟨txt, _, h1, h2, ?_⟩
  show AtMostOne s'.directives
  clear h1 h2
  induction ops generalizing s with
  | nil => simp only [run, Option.some.injEq] at h; rw [← h]; exact hone
  | cons op ops ih =>
    obtain ⟨t, g1, g2⟩ := run_cons h
    exact ih t (step_wf hw hp (ha op (by simp)) g1) (step_param hw hp (ha op (by simp)) g1).1 (fun o ho => ha o (by simp [ho])) (step_one hw hp (ha op (by simp)) hone g1) g2

/-! #### the texts, and the drawing when it is scaled -/

theorem contains_inf (i s : Str) : contains i s = true ↔ i <:+: s := by
  by_cases h : i = []
  · subst h
    have : contains [] s = true := by cases s <;> rfl
    simp [this]
  · exact Lemmas.Qsch.contains_iff i s h

theorem params_text {a : Text} {l : Line} (h : AscOk (.params a l)) : ParamText (ascText (.params a l)) :=
  ⟨h.1, l.kw, l.items.flatMap Item.text ++ l.tail, by simp [ascText, Line.text], h.2.keyword⟩

theorem update_texts (p v : Str) (hv : Value v) (d : List (Dir Text)) (h : ∀ x ∈ d, AscOk x) (hn : value p d ≠ none) :
    ∃ (a b : List Text) (t : Text) (w : Str), d.map ascText = a ++ t :: b ∧ (update p v d).map ascText = a ++ { t with text := w } :: b ∧ ParamText t ∧ ParamText { t with text := w } := by
  induction d with
  | nil => exact absurd rfl hn
  | cons e d ih =>
    have ih := ih (fun x hx => h x (by simp [hx]))
    cases e with
    | other a =>
      obtain ⟨a', b, t, u, e1, e2, e3, e4⟩ := ih hn
      exact ⟨ascText (.other a) :: a', b, t, u, by simp [e1], by simp [update, e2], e3, e4⟩
    | params a l =>
      have hl := h (.params a l) (by simp)
      by_cases hf : find p l.items = none
      · obtain ⟨a', b, t, u, e1, e2, e3, e4⟩ := ih (by
          intro hc
          apply hn
          unfold value at hc ⊢
          rw [List.flatMap_cons, Props.ParamLine.find_append, hc]
          show (find p l.items).or none = none
          rw [hf]; rfl)
        exact ⟨ascText (.params a l) :: a', b, t, u, by simp [e1], by simp [update, hf, e2], e3, e4⟩
      · refine ⟨[], d.map ascText, ascText (.params a l), _, rfl, ?_, params_text hl,
          params_text (a := a) (l := { l with items := assign p v l.items }) ⟨hl.1, Props.ParamLine.line_assign_ok p v hv l hl.2⟩⟩
        have : (find p l.items).isSome = true := by
          cases hh : find p l.items with
          | none => exact absurd hh hf
          | some _ => rfl
        simp only [update]
        rw [if_pos this]
        rfl

theorem step_texts {s s' : Sch} {op : Op} (hw : WellFormed s) (hp : ParamsOk s) (ha : ArgsOk op) (h : step s op = some s') : TextsStep op s.directives s'.directives := by
  cases op with
  | value r v => obtain ⟨c, hc, hm, rfl⟩ := value_cases h; exact .value _ _ _
  | attr r k v => obtain ⟨c, hc, hm, rfl⟩ := attr_cases h; exact .attr _ _ _ _
  | model r m => obtain ⟨c, hc, rfl⟩ := model_cases h; exact .model _ _ _
  | move r x y rot => obtain ⟨c, hc, rfl⟩ := move_cases h; exact .move _ _ _ _ _
  | remove r => obtain ⟨c, hc, rfl⟩ := remove_cases h; exact .remove _ _
  | param p v =>
    obtain ⟨d, d', h1, h2, rfl, h4, x, y, rfl⟩ := param_step p v hp ha h
    show TextsStep _ _ ((Props.ParamLine.ascSetDoc d x y p v).map ascText)
    rw [h1]
    unfold Props.ParamLine.ascSetDoc at h4 ⊢
    split
    · rename_i hn
      rw [if_pos hn] at h4
      rw [List.map_append]
      exact .newParam _ _ _ _ (params_text (h4 _ (by simp)))
    · rename_i hn
      obtain ⟨a, b, t, u, k1, k2, k3, k4⟩ := update_texts p v ha.2.2.1 d h2 hn
      rw [k1, k2]
      exact .setParam _ _ _ _ _ _ k3 k4
  | instruct i =>
    simp only [step] at h
    cases hadd : Model.AscInstr.add s i with
    | error e => rw [hadd] at h; cases h
    | ok q =>
      obtain ⟨s1, log⟩ := q
      rw [hadd] at h
      simp only [Except.toOption, Option.map_some, Option.some.injEq] at h
      subst h
      by_cases hi : Command i
      · rcases Props.AscInstr.C47_add_command s s1 i log hi hadd with ⟨a, b, t, e1, e2, e3, rfl, _⟩ | ⟨e1, x, y, rfl, _⟩
        · rw [e1]; exact .analysis _ _ _ _ e3 hi e2
        · exact .instruct _ _ _ _ (fun _ => e1)
      · obtain ⟨x, y, rfl, _⟩ := Props.AscInstr.C47_add_other s s1 i log hi hadd
        exact .instruct _ _ _ _ (fun hh => absurd hh hi)
  | drop i =>
    simp only [step, Option.some.injEq] at h
    subst h
    have hno : ∀ l : List Text, (∀ x ∈ l, x.type = .comment ∨ contains i x.text = false) → ∀ x ∈ l, x.type = .comment ∨ ¬ i <:+: x.text := by
      intro l hl x hx
      rcases hl x hx with h1 | h1
      · exact .inl h1
      · right; rw [← contains_inf, h1]; simp
    rcases Props.AscInstr.C47_remove s i with ⟨a, b, t, e1, e2, e3, e4, e5⟩ | ⟨e1, e⟩
    · rw [e5, e1]
      exact .drop _ _ _ _ e2 ((contains_inf _ _).1 e3) (hno a e4)
    · rw [e]; exact .absent _ _ (hno _ e1)
  | dropAll m =>
    simp only [step, Option.some.injEq] at h
    rw [← h, (Props.AscInstr.C47_removeX s m).1]
    exact .dropAll _ _
  | scale fx fy =>
    obtain ⟨_, rfl⟩ := scale_cases h
    exact .scale _ _ _
  | reopen => rw [reopen_step hw h]; exact .reopen _

/-- **C106, the texts.** The texts of the file at the end are what the calls, one after the other, make of those of the sheet at the start. -/
theorem C106_texts (s s' : Sch) (ops : List Op) (hw : WellFormed s) (hp : ParamsOk s) (ha : ∀ op ∈ ops, ArgsOk op) (h : run s ops = some s') :
    ∃ txt s'', save s' = some txt ∧ Model.Asc.read txt = some s'' ∧ TextsRun ops s.directives s''.directives := by
  obtain ⟨txt, h1, h2⟩ := Lemmas.AscFile.read_save (run_wf hw hp ha h).1
  refine ⟨txt, _, h1, h2, ?_⟩
  show TextsRun ops s.directives s'.directives
  clear h1 h2
  induction ops generalizing s with
  | nil => simp only [run, Option.some.injEq] at h; rw [← h]; exact .nil _
  | cons op ops ih =>
    obtain ⟨t, g1, g2⟩ := run_cons h
    exact .cons _ _ _ _ _ (step_texts hw hp (ha op (by simp)) g1) (ih t (step_wf hw hp (ha op (by simp)) g1) (step_param hw hp (ha op (by simp)) g1).1 (fun o ho => ha o (by simp [ho])) g2)

theorem step_drawing {s s' : Sch} {op : Op} (hw : WellFormed s) (h : step s op = some s') : drawing s' = drawingAfter (drawing s) op := by
  by_cases hs : ∃ fx fy, op = .scale fx fy
  · obtain ⟨fx, fy, rfl⟩ := hs
    obtain ⟨_, rfl⟩ := scale_cases h
    rfl
  · rw [step_frame hw (fun fx fy e => hs ⟨fx, fy, e⟩) h]
    cases op <;> first | rfl | exact absurd ⟨_, _, rfl⟩ hs

/-- **C106, the drawing.** The wires, labels, lines and shapes in the file at the end are those of the start, every point moved by the scalings in between. -/
theorem C106_drawing (s s' : Sch) (ops : List Op) (hw : WellFormed s) (hp : ParamsOk s) (ha : ∀ op ∈ ops, ArgsOk op) (h : run s ops = some s') :
    ∃ txt s'', save s' = some txt ∧ Model.Asc.read txt = some s'' ∧ drawing s'' = ops.foldl drawingAfter (drawing s) := by
  obtain ⟨txt, h1, h2⟩ := Lemmas.AscFile.read_save (run_wf hw hp ha h).1
  refine ⟨txt, _, h1, h2, ?_⟩
  show drawing s' = _
  clear h1 h2
  induction ops generalizing s with
  | nil => simp only [run, Option.some.injEq] at h; rw [← h]; rfl
  | cons op ops ih =>
    obtain ⟨t, g1, g2⟩ := run_cons h
    rw [ih t (step_wf hw hp (ha op (by simp)) g1) (step_param hw hp (ha op (by simp)) g1).1 (fun o ho => ha o (by simp [ho])) g2, step_drawing hw g1]
    rfl

/-! #### which calls are accepted -/

theorem getAttr_some {s : Sch} {r k : Str} (h : getAttr s r k ≠ none) : ∃ c, getComp s r = some c ∧ k ∈ c.attrs.map Prod.fst := by
  unfold getAttr at h
  cases hc : getComp s r with
  | none => rw [hc] at h; exact absurd rfl h
  | some c =>
    refine ⟨c, rfl, ?_⟩
    rw [hc] at h
    simp only [Option.bind_some, textOf] at h
    cases hl : c.attrs.lookup k with
    | none => rw [hl] at h; exact absurd rfl h
    | some v => exact List.mem_map.2 ⟨_, Lemmas.Analysis.mem_of_lookup hl, rfl⟩

theorem getPlace_iff (s : Sch) (r : Str) : getPlace s r ≠ none ↔ ∃ c, getComp s r = some c := by
  unfold getPlace
  cases getComp s r <;> simp

theorem C106_accepted (s : Sch) (hw : WellFormed s) (hp : ParamsOk s) :
    (∀ r v, getAttr s r "Value".toList ≠ none → step s (.value r v) ≠ none) ∧
    (∀ r k v, k ∈ ["Value".toList, "Value2".toList, "SpiceModel".toList, "SpiceLine".toList, "SpiceLine2".toList] → getAttr s r k ≠ none → step s (.attr r k v) ≠ none) ∧
    (∀ r m, step s (.model r m) ≠ none ↔ getPlace s r ≠ none) ∧
    (∀ r x y rot, step s (.move r x y rot) ≠ none ↔ getPlace s r ≠ none) ∧
    (∀ r, step s (.remove r) ≠ none ↔ getPlace s r ≠ none) ∧
    (∀ p v, ascGet s p ≠ none ∨ (∃ q, Model.AscInstr.textSpace s = .ok q) → step s (.param p v) ≠ none) ∧
    (∀ i, step s (.drop i) ≠ none) ∧ (∀ m, step s (.dropAll m) ≠ none) ∧
    (∀ fx fy, s.ports = [] → step s (.scale fx fy) ≠ none) ∧ step s .reopen ≠ none := by
  refine ⟨?_, ?_, ?_, ?_, ?_, ?_, fun i => by simp [step], fun m => by simp [step], fun fx fy h => by simp [step, h], ?_⟩
  · intro r v h
    obtain ⟨c, h1, h2⟩ := getAttr_some h
    simp only [step, setValue]
    generalize "Value".toList = k at *
    rw [h1]; simp only [Option.bind_some, if_pos h2]; simp
  · intro r k v hk h
    obtain ⟨c, h1, h2⟩ := getAttr_some h
    have hk : k ∈ known := hk
    simp only [step, setKnown]
    rw [h1]; simp only [Option.bind_some, if_pos (And.intro hk h2)]; simp
  · intro r m
    rw [getPlace_iff]
    simp only [step, setModel]
    cases getComp s r <;> simp
  · intro r x y rot
    rw [getPlace_iff]
    simp only [step, Model.AscSession.move]
    cases getComp s r <;> simp
  · intro r
    rw [getPlace_iff]
    simp only [step, removeComp]
    cases getComp s r <;> simp
  · intro p v h
    simp only [step, ascSet]
    unfold ascGet at h
    cases hf : ascFind p s.directives with
    | some q => simp [Except.toOption]
    | none =>
      rw [hf] at h
      rcases h with h | ⟨q, h⟩
      · exact absurd rfl h
      · simp [h, Except.toOption]
  · simp only [step]
    obtain ⟨txt, h1, h2⟩ := Lemmas.AscFile.read_save hw
    rw [h1]; simp [h2]

/-! #### an example -/

/-- The sheet of Props.Asc with a parameter. -/
def exPar : Sch := { Props.Asc.exSch with directives := Props.Asc.exSch.directives ++ [{ x := 5, y := 6, text := ".param x=1k".toList, size := 2, type := .directive }] }

/-- A session: values, a move, a new analysis, an old and a new parameter, scaling, and opening the saved file in between. -/
def exOps : List Op :=
  [.value "R1".toList "4.7k".toList, .instruct ".ac dec 10 1 1k".toList, .param "X".toList "22".toList, .reopen,
   .move "R1".toList 5 6 90, .param "new".toList "{2*x}".toList, .instruct ".save V(out)".toList, .scale (fun x => 2 * x + 1) (fun y => 3 * y),
   .attr "R1".toList "Value".toList " 2.2k ".toList, .model "R1".toList "EuropeanResistor".toList, .drop ".save".toList]

theorem exPar_ok : WellFormed exPar := directives_wf Props.Asc.exSch_ok _ (by
  intro t ht
  rcases List.mem_append.1 ht with ht | ht
  · exact Props.Asc.exSch_ok.directives t ht
  · rw [List.mem_singleton.1 ht]
    exact ⟨.inl rfl, ⟨.inl rfl, fun e => by cases e⟩, rfl, by decide, by decide, by decide, by decide⟩)

theorem paramText_prefix {t : Text} (h : ParamText t) : ".PARAM".toList <+: upper t.text := by
  obtain ⟨_, w, r, e, hw⟩ := h
  rw [e, ← hw]
  exact ⟨upper r, List.map_append.symm⟩

theorem exPar_params : ParamsOk exPar := by
  intro t ht hp
  rcases List.mem_append.1 ht with ht | ht
  · have hx := paramText_prefix hp
    have : ∀ t ∈ Props.Asc.exSch.directives, ¬ ".PARAM".toList <+: upper t.text := by decide +kernel
    exact absurd hx (this t ht)
  · rw [List.mem_singleton.1 ht]
    refine ⟨⟨".param".toList, [⟨" ".toList, "x".toList, "=".toList, "1k".toList⟩], []⟩, ?_, by decide⟩
    refine ⟨by decide, ?_, ?_, by simp, by simp⟩
    · intro i hi
      rw [List.mem_singleton.1 hi]
      exact ⟨by decide, by unfold Spec.ParamLine.Blank; decide, by unfold Name NameChar; decide, .inl ⟨[], [], rfl, by unfold Spec.ParamLine.Blank; decide, by unfold Spec.ParamLine.Blank; decide⟩,
        .inr (.inr ⟨"1".toList, "k".toList, rfl, by decide, by unfold Spec.ParamLine.NumChar; decide, by decide⟩)⟩
    · intro i hi
      simp only [List.head?_cons, Option.some.injEq] at hi
      subst hi
      rintro ⟨c, hc, hn⟩
      have : c = 'x' := by simpa using hc.symm
      subst this; revert hn; unfold Spec.ParamLine.NumChar; decide

theorem exOps_ok : ∀ op ∈ exOps, ArgsOk op := by
  intro op h
  simp only [exOps, List.mem_cons, List.not_mem_nil, or_false] at h
  rcases h with rfl | rfl | rfl | rfl | rfl | rfl | rfl | rfl | rfl | rfl | rfl
  · exact ⟨by decide, by decide, by decide, by decide⟩
  · show '\n' ∉ _; decide
  · refine ⟨by unfold Name NameChar; decide, ?_, .inr (.inr ⟨"22".toList, [], rfl, by decide, by unfold Spec.ParamLine.NumChar; decide, by decide⟩), by decide⟩
    rintro ⟨c, hc, hn⟩
    have : c = 'X' := by simpa using hc.symm
    subst this; revert hn; unfold Spec.ParamLine.NumChar; decide
  · trivial
  · show Orientation 90; unfold Orientation; decide
  · refine ⟨by unfold Name NameChar; decide, ?_, .inl ⟨"2*x".toList, rfl, by decide⟩, by decide⟩
    rintro ⟨c, hc, hn⟩
    have : c = 'n' := by simpa using hc.symm
    subst this; revert hn; unfold Spec.ParamLine.NumChar; decide
  · show '\n' ∉ _; decide
  · trivial
  · exact ⟨by decide +kernel, by decide⟩
  · refine ⟨["EuropeanResistor".toList], ?_, by decide⟩
    intro w hw
    rw [List.mem_singleton.1 hw]
    exact ⟨by decide, by decide⟩
  · trivial

/-- All calls are accepted … -/
theorem exOps_run : ((run exPar exOps).map (fun s => s.directives.map (fun t => String.ofList t.text))) =
    some [".ac dec 10 1 1k", "a note", ".param x=22", ".param new={2*x}"] := by
  decide +kernel

theorem exOps_value : ((run exPar exOps).bind (fun s => getAttr s "R1".toList "Value".toList)) = some "2.2k".toList := by
  decide +kernel

/-- What is removed is not a directive with parameters. -/
theorem exOps_before : ((run exPar (exOps.take 10)).map (fun s => (s.directives.filter (fun t => contains ".save".toList t.text)).map Text.text)) = some [".save V(out)".toList] := by
  decide +kernel

theorem keepsAll_snoc (s : Sch) (a : List Op) (op : Op) (ha : ∀ o ∈ a, ∀ s, Keeps s o) (h : ∀ t, run s a = some t → Keeps t op) : KeepsAll s (a ++ [op]) := by
  induction a generalizing s with
  | nil => exact ⟨h s rfl, fun _ _ => trivial⟩
  | cons o a ih =>
    refine ⟨ha o (by simp) s, fun s' hs => ih s' (fun x hx => ha x (by simp [hx])) (fun t ht => h t ?_)⟩
    simp only [run, hs, Option.bind_some]
    exact ht

theorem exOps_keeps : KeepsAll exPar exOps := by
  show KeepsAll exPar (exOps.take 10 ++ [.drop ".save".toList])
  apply keepsAll_snoc
  · intro o ho s
    simp only [exOps, List.take, List.mem_cons, List.not_mem_nil, or_false] at ho
    rcases ho with rfl | rfl | rfl | rfl | rfl | rfl | rfl | rfl | rfl | rfl <;> exact trivial
  · intro t ht u hu hc hp
    have h := exOps_before
    rw [ht] at h
    simp only [Option.map_some, Option.some.injEq] at h
    have hm : u.text ∈ (t.directives.filter (fun t => contains ".save".toList t.text)).map Text.text := List.mem_map_of_mem (List.mem_filter.2 ⟨hu, hc⟩)
    rw [h, List.mem_singleton] at hm
    have hx := paramText_prefix hp
    rw [hm] at hx
    exact absurd hx (by decide)

/-- The theorem applies: what the saved file shows. -/
theorem exOps_file (s' : Sch) (h : run exPar exOps = some s') : ∃ txt s'', save s' = some txt ∧ Model.Asc.read txt = some s'' ∧
    getAttr s'' "R1".toList "Value".toList = some "2.2k".toList ∧ getAttr s'' "R1".toList "Prefix".toList = some "R".toList ∧ getPlace s'' "R1".toList = some (11, 18, 90) := by
  obtain ⟨txt, s'', h1, h2, _, h3, _, h5⟩ := C106_session exPar s' exOps exPar_ok exPar_params exOps_ok h
  refine ⟨txt, s'', h1, h2, ?_, ?_, ?_⟩
  · rw [h3]; decide +kernel
  · rw [h3]; decide +kernel
  · rw [h5]; decide +kernel

theorem exOps_param (s' : Sch) (h : run exPar exOps = some s') : ∃ txt s'', save s' = some txt ∧ Model.Asc.read txt = some s'' ∧
    ascGet s'' "x".toList = some "22".toList ∧ ascGet s'' "NEW".toList = some "{2*x}".toList := by
  obtain ⟨txt, s'', h1, h2, _, h4⟩ := C106_params exPar s' exOps exPar_ok exPar_params exOps_ok exOps_keeps h
  refine ⟨txt, s'', h1, h2, ?_, ?_⟩
  · rw [h4]
    have e : last (paramSaid "x".toList) exOps = some "22".toList := by
      have a : Same "x".toList "X".toList := by decide +kernel
      have b : ¬ Same "x".toList "new".toList := by decide +kernel
      simp only [last, exOps, List.reverse_cons, List.reverse_nil, List.nil_append, List.cons_append, List.findSome?_cons, paramSaid, if_pos a, if_neg b]
    rw [e]; rfl
  · rw [h4]
    have e : last (paramSaid "NEW".toList) exOps = some "{2*x}".toList := by
      have b : Same "NEW".toList "new".toList := by decide +kernel
      simp only [last, exOps, List.reverse_cons, List.reverse_nil, List.nil_append, List.cons_append, List.findSome?_cons, paramSaid, if_pos b]
    rw [e]; rfl

end Props.AscSession
