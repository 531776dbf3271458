import Verif.Model.QComp
import Verif.Spec.QComp
import Verif.Props.Qsch
import Verif.Props.SchComp
/-
C66: components of QSPICE schematics. C67: instructions of QSPICE schematics.
-/
namespace Props.QComp
open Model.QComp Model.PyStr
open Model.ParamRegex (findIter Match splice scan sep? sepValue? wordChar QText qualifier unqualify)
open Spec.QComp
open Spec.SchComp (Pairs names assignPair removePair valueAfter)
open Spec.ParamLine hiding Str
open Model.Netlist (Perm)
open Model.Updates (UpdateType)
open Lemmas.ParamRegex
open Props.SchComp (lookup_append lookup_none lookup_mem)

/-! ### Matches in one text -/

def shift (m : Match) : Match := ⟨m.name, m.value, m.start + 1, m.stop + 1, m.first + 1⟩

theorem scan_shift : ∀ (s : Str) (n a : Nat), scan n (a + 1) s = (scan n a s).map shift := by
  intro s
  induction s with
  | nil => intro n a; cases n <;> rfl
  | cons c s ih =>
    intro n a
    cases n with
    | succ n => exact ih n _
    | zero =>
      simp only [scan]
      split
      · split
        · exact ih 0 _
        · simp only [List.map_cons, shift, List.cons.injEq, Match.mk.injEq, true_and]
          refine ⟨⟨by omega, by omega, trivial⟩, ih _ _⟩
      · exact ih 0 _

theorem blank_tail (tail : Str) (hb : Blank tail) : (∀ c ∈ tail, ¬ NumChar c ∧ c ≠ '{' ∧ c ≠ '"') ∧ ∀ c, tail.head? = some c → ¬ NameChar c ∧ c ≠ '%' := by
  constructor
  · intro c hc
    have := space_facts c (hb c hc)
    exact ⟨fun hn => by rw [(num_iff c).2 hn] at this; exact absurd this.2.1 (by simp), this.2.2.2.2.1, this.2.2.2.2.2⟩
  · intro c hc
    have hm : c ∈ tail := List.mem_of_mem_head? hc
    have := space_facts c (hb c hm)
    refine ⟨fun hn => by rw [(word_iff c).2 hn] at this; exact absurd this.1 (by simp), ?_⟩
    rintro rfl
    exact absurd (hb _ hm) (by decide)

/-- the matches in a text of pairs, counted from one position before it -/
theorem find_shift (s : Str) (items : List Item) (tail : Str) (text : ' ' :: s = items.flatMap Item.text ++ tail) (ok : ∀ i ∈ items, i.Ok) (blank : Blank tail) :
    (findIter s).map shift = spans 0 items := by
  have k := scan_items tail (blank_tail tail blank).2 (blank_tail tail blank).1 items ok 0
  rw [← text, scan_nonword (by decide), scan_shift] at k
  exact k

theorem word_none (s : Str) (h1 : '=' ∉ s) (h2 : ' ' ∉ s) : findIter s = [] := by
  have hv : ∀ t : Str, '=' ∉ t → ' ' ∉ t → sepValue? t = none := by
    intro t h1 h2
    have : sep? t = none := by
      unfold sep?
      simp only
      have e := (List.takeWhile_append_dropWhile (p := isSpace) (l := t))
      split
      · rename_i r heq
        exfalso; apply h1; rw [← e, heq]; simp
      · rw [if_neg]
        intro hm
        exact h2 (by rw [← e]; exact List.mem_append_left _ hm)
    simp only [sepValue?, this]
  have key : ∀ (s : Str) (pos : Nat), '=' ∉ s → ' ' ∉ s → scan 0 pos s = [] := by
    intro s
    induction s with
    | nil => intro pos _ _; rfl
    | cons c s ih =>
      intro pos h1 h2
      have i := ih (pos + 1) (fun h => h1 (by simp [h])) (fun h => h2 (by simp [h]))
      rw [scan]
      split
      · rw [hv]
        · exact i
        · exact fun h => h1 ((List.dropWhile_suffix _).mem h)
        · exact fun h => h2 ((List.dropWhile_suffix _).mem h)
      · exact i
  exact key s 0 h1 h2

theorem find_shows (s : Str) (ps : Pairs) (h : Shows s ps) : (findIter s).map (fun m => (m.name, m.value)) = ps := by
  cases h with
  | word h1 h2 => rw [word_none s h1 h2]; rfl
  | pairs items tail text ok blank =>
    have := congrArg (List.map (fun m : Match => (m.name, m.value))) (find_shift s items tail text ok blank)
    rw [List.map_map, Props.SchComp.spans_pairs] at this
    exact this

theorem hit_none (s : Str) (ps : Pairs) (h : Shows s ps) (k : Str) (hk : k ∉ names ps) : hit k s = none := by
  rw [hit, List.find?_eq_none]
  intro m hm he
  apply hk
  rw [← find_shows s ps h]
  simp only [names, List.map_map, List.mem_map]
  exact ⟨m, hm, by simpa using he⟩

theorem spans_hit (k : Str) (i : Item) (hi : i.name = k) (b : List Item) : ∀ (a : List Item) (pos : Nat), (∀ j ∈ a, j.name ≠ k) →
    (spans pos (a ++ i :: b)).find? (fun m => m.name = k) = some ⟨i.name, i.value, pos + (a.flatMap Item.text ++ i.gap ++ i.name ++ i.sep).length,
      pos + (a.flatMap Item.text ++ i.text).length, pos + (a.flatMap Item.text ++ i.gap).length⟩ := by
  intro a
  induction a with
  | nil =>
    intro pos _
    simp only [List.nil_append, spans, List.find?_cons, hi, decide_true, List.flatMap_nil, List.length_append]
    congr 2
    omega
  | cons j a ih =>
    intro pos ha
    have hj := ha j (by simp)
    simp only [List.cons_append, spans, List.find?_cons, hj, decide_false]
    rw [ih _ (fun x hx => ha x (by simp [hx]))]
    simp only [List.flatMap_cons, List.length_append]
    congr 2 <;> omega

theorem find_map_shift (k : Str) (ms : List Match) : (ms.map shift).find? (fun m => m.name = k) = (ms.find? (fun m => m.name = k)).map shift := by
  induction ms with
  | nil => rfl
  | cons m ms ih =>
    simp only [List.map_cons, List.find?_cons]
    by_cases h : m.name = k
    · simp [shift, h]
    · have : (shift m).name ≠ k := h
      simp only [this, h, decide_false]
      exact ih

/-- a parameter of a text, and where it stands -/
theorem hit_some (s : Str) (items : List Item) (tail : Str) (text : ' ' :: s = items.flatMap Item.text ++ tail) (ok : ∀ i ∈ items, i.Ok) (blank : Blank tail)
    (k : Str) (hk : k ∈ names (items.map (fun i => (i.name, i.value)))) :
    ∃ (a b : List Item) (i : Item) (A : Str) (m : Match), items = a ++ i :: b ∧ i.name = k ∧ (∀ j ∈ a, j.name ≠ k) ∧ a.flatMap Item.text ++ i.gap = ' ' :: A ∧
      s = A ++ (k ++ i.sep ++ i.value) ++ (b.flatMap Item.text ++ tail) ∧ hit k s = some m ∧
      m.first = A.length ∧ m.start = (A ++ (k ++ i.sep)).length ∧ m.stop = (A ++ (k ++ i.sep ++ i.value)).length := by
  -- the first item with that name
  have split : ∀ items : List Item, k ∈ names (items.map (fun i => (i.name, i.value))) →
      ∃ (a b : List Item) (i : Item), items = a ++ i :: b ∧ i.name = k ∧ ∀ j ∈ a, j.name ≠ k := by
    intro items
    induction items with
    | nil => intro h; simp [names] at h
    | cons j items ih =>
      intro h
      by_cases hj : j.name = k
      · exact ⟨[], items, j, rfl, hj, by simp⟩
      · obtain ⟨a, b, i, e, hi, ha⟩ := ih (by simpa [names, Ne.symm hj] using h)
        exact ⟨j :: a, b, i, by rw [e]; rfl, hi, by intro x hx; rcases List.mem_cons.1 hx with rfl | hx; exacts [hj, ha x hx]⟩
  obtain ⟨a, b, i, e, hi, ha⟩ := split items hk
  have hA : ∃ A, a.flatMap Item.text ++ i.gap = ' ' :: A := by
    have hne : a.flatMap Item.text ++ i.gap ≠ [] := by
      have := (ok i (by rw [e]; simp)).1
      simp [this]
    obtain ⟨c, A, hc⟩ := List.exists_cons_of_ne_nil hne
    refine ⟨A, ?_⟩
    have t2 : ' ' :: s = (a.flatMap Item.text ++ i.gap) ++ (i.name ++ i.sep ++ i.value ++ (b.flatMap Item.text ++ tail)) := by
      rw [text, e]; simp [Item.text]
    rw [hc] at t2 ⊢
    simp only [List.cons_append, List.cons.injEq] at t2
    rw [← t2.1]
  obtain ⟨A, hA⟩ := hA
  have hs : s = A ++ (k ++ i.sep ++ i.value) ++ (b.flatMap Item.text ++ tail) := by
    have t2 : ' ' :: s = (a.flatMap Item.text ++ i.gap) ++ (i.name ++ i.sep ++ i.value ++ (b.flatMap Item.text ++ tail)) := by
      rw [text, e]; simp [Item.text]
    rw [hA, hi] at t2
    simpa using t2
  have hf := spans_hit k i hi b a 0 ha
  rw [← e, ← find_shift s items tail text ok blank, find_map_shift] at hf
  obtain ⟨m, hm, hsh⟩ := Option.map_eq_some_iff.1 hf
  have l1 : (a.flatMap Item.text ++ i.gap).length = A.length + 1 := by rw [hA]; simp
  simp only [List.length_append] at l1
  simp only [shift, Match.mk.injEq, Nat.zero_add, Item.text, List.length_append] at hsh
  obtain ⟨_, _, h3, h4, h5⟩ := hsh
  have hlen : i.name.length = k.length := by rw [hi]
  refine ⟨a, b, i, A, m, e, hi, ha, hA, hs, hm, by omega, ?_, ?_⟩
  · simp only [List.length_append]; omega
  · simp only [List.length_append]; omega

/-- replacing the value -/
theorem rewrite_set (s : Str) (ps : Pairs) (h : Shows s ps) (hn : (names ps).Nodup) (k v : Str) (hv : Value v) (hk : k ∈ names ps) :
    ∃ m s', hit k s = some m ∧ rewrite (some v) s m = some s' ∧ Replaced k v s s' ∧ Shows s' (assignPair k v ps) := by
  cases h with
  | word h1 h2 => simp [names] at hk
  | pairs items tail text ok blank =>
    obtain ⟨a, b, i, A, m, e, hi, ha, hA, hs, hm, h1, h2, h3⟩ := hit_some s items tail text ok blank k hk
    have hval : rewrite (some v) s m = some (A ++ (k ++ i.sep ++ v) ++ (b.flatMap Item.text ++ tail)) := by
      simp only [rewrite, splice, h2, h3]
      congr 1
      have d1 : s = (A ++ (k ++ i.sep)) ++ (i.value ++ (b.flatMap Item.text ++ tail)) := by rw [hs]; simp
      have d2 : s = (A ++ (k ++ i.sep ++ i.value)) ++ (b.flatMap Item.text ++ tail) := by rw [hs]
      conv_lhs => rw [d1, List.take_left]
      conv_lhs => rw [← d1, d2, List.drop_left]
      simp
    refine ⟨m, _, hm, hval, ⟨A, i.sep, i.value, b.flatMap Item.text ++ tail, (ok i (by rw [e]; simp)).2.2.2.1, hs, rfl⟩, ?_⟩
    have key : Shows (A ++ (k ++ i.sep ++ v) ++ (b.flatMap Item.text ++ tail)) ((a ++ { i with value := v } :: b).map (fun i => (i.name, i.value))) := by
      apply Shows.pairs (tail := tail)
      · have : ' ' :: (A ++ (k ++ i.sep ++ v) ++ (b.flatMap Item.text ++ tail)) = (' ' :: A) ++ (k ++ i.sep ++ v) ++ (b.flatMap Item.text ++ tail) := by simp
        rw [this, ← hA, ← hi]
        simp [Item.text]
      · intro j hj
        simp only [List.mem_append, List.mem_cons] at hj
        have oki := ok i (by rw [e]; simp)
        rcases hj with hj | rfl | hj
        · exact ok j (by rw [e]; simp [hj])
        · exact ⟨oki.1, oki.2.1, oki.2.2.1, oki.2.2.2.1, hv⟩
        · exact ok j (by rw [e]; simp [hj])
      · exact blank
    have e2 : assignPair k v (items.map (fun i => (i.name, i.value))) = (a ++ { i with value := v } :: b).map (fun i => (i.name, i.value)) := by
      rw [assignPair, if_pos hk, e]
      have hb : ∀ j ∈ b, j.name ≠ k := by
        intro j hj hjk
        rw [e] at hn
        simp only [names, List.map_map, List.map_append, List.map_cons] at hn
        have := (List.nodup_cons.1 (List.nodup_append.1 hn).2.1).1
        apply this
        simp only [List.mem_map, Function.comp_apply]
        exact ⟨j, hj, by simp [hjk, hi]⟩
      have f : ∀ l : List Item, (∀ j ∈ l, j.name ≠ k) → (l.map (fun i => (i.name, i.value))).map (fun p => if p.1 = k then (k, v) else p) = l.map (fun i => (i.name, i.value)) := by
        intro l hl
        rw [List.map_map]
        apply List.map_congr_left
        intro j hj
        simp [hl j hj]
      simp only [List.map_append, List.map_cons, f a ha, f b hb, hi, if_true]
    rw [e2]; exact key

/-- taking the pair out -/
theorem rewrite_remove (s : Str) (ps : Pairs) (h : Shows s ps) (hn : (names ps).Nodup) (k : Str) (hk : k ∈ names ps) :
    ∃ m s', hit k s = some m ∧ Removed k s s' ∧ rewrite none s m = (if s' = [] then none else some s') ∧ Shows s' (removePair k ps) := by
  cases h with
  | word h1 h2 => simp [names] at hk
  | pairs items tail text ok blank =>
    obtain ⟨a, b, i, A, m, e, hi, ha, hA, hs, hm, h1, h2, h3⟩ := hit_some s items tail text ok blank k hk
    refine ⟨m, A ++ (b.flatMap Item.text ++ tail), hm, ⟨A, i.sep, i.value, b.flatMap Item.text ++ tail, (ok i (by rw [e]; simp)).2.2.2.1, hs, rfl⟩, ?_, ?_⟩
    · simp only [rewrite]
      have hlen : s.length = A.length + (k ++ i.sep ++ i.value).length + (b.flatMap Item.text ++ tail).length := by rw [hs, List.length_append, List.length_append]
      have hst : m.stop = A.length + (k ++ i.sep ++ i.value).length := by rw [h3, List.length_append]
      by_cases hz : A ++ (b.flatMap Item.text ++ tail) = []
      · rw [if_pos hz, if_pos]
        obtain ⟨z1, z2⟩ := List.append_eq_nil_iff.1 hz
        rw [z2] at hlen
        rw [z1] at hlen hst
        simp only [List.length_nil] at hlen hst
        rw [h1, z1, List.length_nil]; omega
      · have hpos : 0 < (A ++ (b.flatMap Item.text ++ tail)).length := List.length_pos_iff.2 hz
        rw [List.length_append] at hpos
        rw [if_neg hz, if_neg (by omega)]
        congr 1
        have d1 : s = A ++ ((k ++ i.sep ++ i.value) ++ (b.flatMap Item.text ++ tail)) := by rw [hs]; simp
        have d2 : s = (A ++ (k ++ i.sep ++ i.value)) ++ (b.flatMap Item.text ++ tail) := by rw [hs]
        rw [h1, h3]
        conv_lhs => rw [d1, List.take_left]
        conv_lhs => rw [← d1, d2, List.drop_left]
    · have hb : ∀ j ∈ b, j.name ≠ k := by
        intro j hj hjk
        rw [e] at hn
        simp only [names, List.map_map, List.map_append, List.map_cons] at hn
        have := (List.nodup_cons.1 (List.nodup_append.1 hn).2.1).1
        apply this
        simp only [List.mem_map, Function.comp_apply]
        exact ⟨j, hj, by simp [hjk, hi]⟩
      have f : ∀ l : List Item, (∀ j ∈ l, j.name ≠ k) → removePair k (l.map (fun i => (i.name, i.value))) = l.map (fun i => (i.name, i.value)) := by
        intro l hl
        rw [removePair, List.filter_eq_self]
        intro p hp
        obtain ⟨j, hj, rfl⟩ := List.mem_map.1 hp
        simpa using hl j hj
      have e2 : removePair k (items.map (fun i => (i.name, i.value))) = (a ++ b).map (fun i => (i.name, i.value)) := by
        rw [e, List.map_append, List.map_append, List.map_cons, ← f a ha, ← f b hb]
        simp only [removePair, List.filter_append, List.filter_filter, Bool.and_self]
        congr 1
        rw [List.filter_cons, if_neg (by simp [hi])]
        exact (List.filter_eq_self.2 (fun p hp => (List.mem_filter.1 hp).2)).symm ▸ rfl
      rw [e2]
      have oki := ok i (by rw [e]; simp)
      cases b with
      | nil =>
        -- the blanks before the pair stay at the end
        rw [List.append_nil]
        apply Shows.pairs (tail := i.gap ++ tail)
        · have : ' ' :: (A ++ ((([] : List Item).flatMap Item.text) ++ tail)) = (' ' :: A) ++ tail := by simp
          rw [this, ← hA]; simp
        · intro j hj; exact ok j (by rw [e]; simp [hj])
        · intro c hc
          rcases List.mem_append.1 hc with m | m
          · exact oki.2.1 c m
          · exact blank c m
      | cons j b =>
        have okj := ok j (by rw [e]; simp)
        have : (a ++ j :: b).map (fun i => (i.name, i.value)) = (a ++ { j with gap := i.gap ++ j.gap } :: b).map (fun i => (i.name, i.value)) := by simp
        rw [this]
        apply Shows.pairs (tail := tail)
        · have : ' ' :: (A ++ ((j :: b).flatMap Item.text ++ tail)) = (' ' :: A) ++ ((j :: b).flatMap Item.text ++ tail) := by simp
          rw [this, ← hA]
          simp [Item.text]
        · intro x hx
          simp only [List.mem_append, List.mem_cons] at hx
          rcases hx with hx | rfl | hx
          · exact ok x (by rw [e]; simp [hx])
          · refine ⟨by simp [oki.1], ?_, okj.2.2⟩
            intro c hc
            rcases List.mem_append.1 hc with m | m
            · exact oki.2.1 c m
            · exact okj.2.1 c m
          · exact ok x (by rw [e]; simp [hx])
        · exact blank

/-! ### The texts of a symbol -/

theorem name_infix (s : Str) : ∀ m ∈ findIter s, m.name <:+: s := by
  have key : ∀ (s : Str) (n pos : Nat), ∀ m ∈ scan n pos s, m.name <:+: s := by
    intro s
    induction s with
    | nil => intro n pos m hm; cases n <;> simp [scan] at hm
    | cons c s ih =>
      intro n pos m hm
      have up : ∀ t : Str, t <:+: s → t <:+: c :: s := fun t h => h.trans (List.suffix_cons c s).isInfix
      cases n with
      | succ n => exact up _ (ih n _ m hm)
      | zero =>
        simp only [scan] at hm
        split at hm
        · split at hm
          · exact up _ (ih 0 _ m hm)
          · rcases List.mem_cons.1 hm with rfl | hm
            · exact (List.takeWhile_prefix _).isInfix
            · exact up _ (ih _ _ m hm)
        · exact up _ (ih 0 _ m hm)
  exact key s 0 0

theorem hit_absent (k s : Str) (h : ¬ k <:+: s) : hit k s = none := by
  rw [hit, List.find?_eq_none]
  intro m hm he
  exact h (by simpa using (of_decide_eq_true he) ▸ name_infix s m hm)

theorem edit_hit (k : Str) (v : Option Str) (m : Match) (s : Str) (B : List Str) (hm : hit k s = some m) : ∀ (items : List Tag) (n : Nat) (A : List Str),
    textsOf items = A ++ s :: B → (∀ t ∈ A, hit k t = none) →
    ∃ pre post : List Tag, items = pre ++ .text s :: post ∧ textsOf pre = A ∧ textsOf post = B ∧
      edit k v (n + 1) items = some (pre ++ (rewrite v s m).toList.map Tag.text ++ post) := by
  intro items
  induction items with
  | nil => intro n A h; simp [textsOf] at h
  | cons t items ih =>
    intro n A h hA
    cases t with
    | pin =>
      obtain ⟨pre, post, e, h1, h2, h3⟩ := ih n A h hA
      exact ⟨.pin :: pre, post, by rw [e]; rfl, h1, h2, by simp [edit, h3]⟩
    | other a =>
      obtain ⟨pre, post, e, h1, h2, h3⟩ := ih n A h hA
      exact ⟨.other a :: pre, post, by rw [e]; rfl, h1, h2, by simp [edit, h3]⟩
    | text x =>
      have h' : x :: textsOf items = A ++ s :: B := h
      cases A with
      | nil =>
        simp only [List.nil_append, List.cons.injEq] at h'
        obtain ⟨rfl, hB⟩ := h'
        refine ⟨[], items, rfl, rfl, hB, ?_⟩
        rw [edit, if_neg (by omega), hm]
        cases h9 : rewrite v x m <;> simp [h9]
      | cons y A =>
        simp only [List.cons_append, List.cons.injEq] at h'
        obtain ⟨rfl, h'⟩ := h'
        obtain ⟨pre, post, e, h1, h2, h3⟩ := ih (n + 1) A h' (fun t ht => hA t (by simp [ht]))
        refine ⟨.text x :: pre, post, by rw [e]; rfl, by rw [← h1]; rfl, h2, ?_⟩
        rw [edit, if_neg (by omega), hA x (by simp), h3]
        rfl

theorem edit_miss (k : Str) (v : Option Str) : ∀ (items : List Tag) (n : Nat), (∀ t ∈ textsOf items, hit k t = none) → edit k v (n + 1) items = none := by
  intro items
  induction items with
  | nil => intro n _; rfl
  | cons t items ih =>
    intro n h
    cases t with
    | pin => rw [edit, ih n h]; rfl
    | other a => rw [edit, ih n h]; rfl
    | text x =>
      rw [edit, if_neg (by omega), h x (by simp [textsOf, textOf]), ih (n + 1) (fun t ht => h t (by
        show t ∈ x :: textsOf items
        exact List.mem_cons_of_mem _ ht))]
      rfl

/-- the reference is passed over -/
theorem edit_hit0 (k : Str) (v : Option Str) (m : Match) (r s : Str) (B : List Str) (hm : hit k s = some m) : ∀ (items : List Tag) (A : List Str),
    textsOf items = r :: A ++ s :: B → (∀ t ∈ A, hit k t = none) →
    ∃ pre post : List Tag, items = pre ++ .text s :: post ∧ textsOf pre = r :: A ∧ textsOf post = B ∧
      edit k v 0 items = some (pre ++ (rewrite v s m).toList.map Tag.text ++ post) := by
  intro items
  induction items with
  | nil => intro A h; simp [textsOf] at h
  | cons t items ih =>
    intro A h hA
    cases t with
    | pin =>
      obtain ⟨pre, post, e, h1, h2, h3⟩ := ih A h hA
      exact ⟨.pin :: pre, post, by rw [e]; rfl, h1, h2, by simp [edit, h3]⟩
    | other a =>
      obtain ⟨pre, post, e, h1, h2, h3⟩ := ih A h hA
      exact ⟨.other a :: pre, post, by rw [e]; rfl, h1, h2, by simp [edit, h3]⟩
    | text x =>
      have h' : x :: textsOf items = r :: (A ++ s :: B) := h
      simp only [List.cons.injEq] at h'
      obtain ⟨rfl, h'⟩ := h'
      obtain ⟨pre, post, e, h1, h2, h3⟩ := edit_hit k v m s B hm items 0 A h' hA
      exact ⟨.text x :: pre, post, by rw [e]; rfl, by rw [← h1]; rfl, h2, by simp [edit, h3]⟩

theorem edit_miss0 (k : Str) (v : Option Str) (r : Str) : ∀ (items : List Tag) (L : List Str), textsOf items = r :: L → (∀ t ∈ L, hit k t = none) →
    edit k v 0 items = none := by
  intro items
  induction items with
  | nil => intro L h; simp [textsOf] at h
  | cons t items ih =>
    intro L h hL
    cases t with
    | pin => rw [edit, ih L h hL]; rfl
    | other a => rw [edit, ih L h hL]; rfl
    | text x =>
      have h' : x :: textsOf items = r :: L := h
      simp only [List.cons.injEq] at h'
      rw [edit, if_pos rfl, edit_miss k v items 0 (by rw [h'.2]; exact hL)]
      rfl

theorem textsOf_append (a b : List Tag) : textsOf (a ++ b) = textsOf a ++ textsOf b := List.filterMap_append ..
theorem textsOf_text (s : Str) (l : List Tag) : textsOf (.text s :: l) = s :: textsOf l := rfl

/-! ### Where a new text goes -/

/-- All texts stand before the first pin. -/
def TextsFirst (items : List Tag) : Prop := ∃ a b : List Tag, items = a ++ b ∧ .pin ∉ a ∧ textsOf b = []

theorem place_lit : ∀ (a b : List Tag) (i last : Nat), .pin ∉ a → textsOf b = [] → last ≤ i →
    ∃ p q : List Tag, a ++ b = p ++ q ∧ textsOf q = [] ∧ .pin ∉ p ∧
      (place i last (a ++ b) = i + p.length ∨ (place i last (a ++ b) = last ∧ textsOf (a ++ b) = [])) := by
  intro a
  induction a with
  | nil =>
    intro b
    induction b with
    | nil => intro i last _ _ _; exact ⟨[], [], rfl, rfl, by simp, .inr ⟨rfl, rfl⟩⟩
    | cons t b ih =>
      intro i last _ hb hl
      cases t with
      | text s => simp [textsOf, textOf] at hb
      | pin => exact ⟨[], .pin :: b, rfl, hb, by simp, .inl rfl⟩
      | other n =>
        obtain ⟨p, q, e, h1, h2, h3⟩ := ih (i + 1) last (by simp) hb (by omega)
        refine ⟨.other n :: p, q, by rw [List.nil_append] at e; rw [e]; rfl, h1, by simpa using h2, ?_⟩
        rcases h3 with h3 | h3
        · left
          show place (i + 1) last b = _
          rw [List.nil_append] at h3
          rw [h3, List.length_cons]; omega
        · exact .inr h3
  | cons t a ih =>
    intro b i last ha hb hl
    have ha' : Tag.pin ∉ a := fun h => ha (by simp [h])
    cases t with
    | pin => exact absurd (by simp) ha
    | other n =>
      obtain ⟨p, q, e, h1, h2, h3⟩ := ih b (i + 1) last ha' hb (by omega)
      refine ⟨.other n :: p, q, by rw [List.cons_append, e]; rfl, h1, by simpa using h2, ?_⟩
      rcases h3 with h3 | h3
      · left
        show place (i + 1) last (a ++ b) = _
        rw [h3, List.length_cons]; omega
      · exact .inr h3
    | text s =>
      obtain ⟨p, q, e, h1, h2, h3⟩ := ih b (i + 1) (i + 1) ha' hb (by omega)
      rcases h3 with h3 | ⟨h3, h4⟩
      · refine ⟨.text s :: p, q, by rw [List.cons_append, e]; rfl, h1, by simpa using h2, .inl ?_⟩
        show place (i + 1) (i + 1) (a ++ b) = _
        rw [h3, List.length_cons]; omega
      · refine ⟨[.text s], a ++ b, rfl, h4, by simp, .inl ?_⟩
        show place (i + 1) (i + 1) (a ++ b) = _
        rw [h3]; rfl

theorem insert_texts (items : List Tag) (h : TextsFirst items) (ht : textsOf items ≠ []) (s : Str) :
    ∃ p q : List Tag, items = p ++ q ∧ textsOf q = [] ∧ .pin ∉ p ∧ insertTag items (.text s) = p ++ .text s :: q := by
  obtain ⟨a, b, rfl, ha, hb⟩ := h
  obtain ⟨p, q, e, h1, h2, h3⟩ := place_lit a b 0 0 ha hb (Nat.le_refl _)
  rcases h3 with h3 | ⟨_, h4⟩
  · refine ⟨p, q, e, h1, h2, ?_⟩
    unfold insertTag
    rw [h3, Nat.zero_add, e]
    by_cases hq : p.length < (p ++ q).length
    · rw [if_pos hq, List.take_left, List.drop_left]
    · rw [if_neg hq]
      have : q = [] := by
        apply List.eq_nil_of_length_eq_zero
        rw [List.length_append] at hq; omega
      rw [this]; simp
  · exact absurd h4 ht

/-! ### A new text tag -/

open Spec.QschTree (HasColon Token WellFormed) in
theorem colon_pre (P t : Str) (h0 : ':' ∉ P) (h : HasColon (P ++ t)) : HasColon t := by
  induction P with
  | nil => exact h
  | cons c P ih =>
    rcases List.infix_cons_iff.1 h with h1 | h1
    · rw [List.cons_prefix_cons] at h1
      exact absurd (by rw [h1.1]; exact List.mem_cons_self) h0
    · exact ih (fun hm => h0 (List.mem_cons_of_mem _ hm)) h1

open Spec.QschTree (HasColon Token WellFormed) in
theorem colon_post (s : Str) (h : HasColon (s ++ ['"'])) : HasColon s := by
  induction s with
  | nil => exact absurd h (by unfold HasColon; decide)
  | cons c s ih =>
    rcases List.infix_cons_iff.1 h with h1 | h1
    · rw [List.cons_prefix_cons] at h1
      obtain ⟨rfl, h1⟩ := h1
      cases s with
      | nil => exact absurd h1 (by decide)
      | cons d s =>
        have h2 : [' '] <+: d :: (s ++ ['"']) := h1
        rw [List.cons_prefix_cons] at h2
        exact ⟨[], s, by rw [← h2.1]; rfl⟩
    · exact (ih h1).trans (List.suffix_cons c s).isInfix

theorem join_nine (a b c d e f g h i : Str) : Model.Qsch.join [a, b, c, d, e, f, g, h, i] =
    a ++ ' ' :: (b ++ ' ' :: (c ++ ' ' :: (d ++ ' ' :: (e ++ ' ' :: (f ++ ' ' :: (g ++ ' ' :: (h ++ ' ' :: i))))))) := by
  simp only [Model.Qsch.join]

theorem head_colon (size : Str) (hc : ':' ∉ size) (x y : Int) : ':' ∉ textHead size x y ++ ['"'] := by
  have hn : ∀ n : Int, ':' ∉ showInt n := fun n h => (Lemmas.PyStr.showInt_props n _ h).2.2.2.2.2.2.2.2 rfl
  intro h
  unfold textHead at h
  rcases List.mem_append.1 h with h | h
  · rcases List.mem_append.1 h with h | h
    · rcases List.mem_append.1 h with h | h
      · rcases List.mem_append.1 h with h | h
        · rcases List.mem_append.1 h with h | h
          · rcases List.mem_append.1 h with h | h
            · exact absurd h (by decide +kernel)
            · exact hn x h
          · rcases List.mem_cons.1 h with h | h
            · exact absurd h (by decide)
            · exact hn y h
        · exact absurd h (by decide +kernel)
      · exact hc h
    · exact absurd h (by decide +kernel)
  · exact absurd h (by decide)

def textToks (size : Str) (x y : Int) (s : Str) : List Str :=
  ["text".toList, '(' :: showInt x ++ ',' :: showInt y ++ [')'], size, "0".toList, "0".toList, "0x1000000".toList, "-1".toList, "-1".toList, '"' :: s ++ ['"']]

theorem textToks_join (size : Str) (x y : Int) (s : Str) : Model.Qsch.join (textToks size x y s) = textHead size x y ++ ('"' :: s ++ ['"']) := by
  unfold textToks textHead
  rw [join_nine]
  simp only [List.append_assoc, List.cons_append, List.nil_append]
  rfl

open Spec.QschTree (HasColon Token WellFormed) in
theorem textToks_tokens (size : Str) (hs : Token size) (x y : Int) (s : Str) (hq : '"' ∉ s) : ∀ w ∈ textToks size x y s, Token w := by
  intro w hw
  unfold textToks at hw
  simp only [List.mem_cons, List.not_mem_nil, or_false] at hw
  have tok : ∀ w ∈ ["text".toList, "0".toList, "0x1000000".toList, "-1".toList], Token w := by
    intro w hw
    apply Props.Qsch.token_word
    revert w
    decide +kernel
  rcases hw with rfl | rfl | rfl | rfl | rfl | rfl | rfl | rfl | rfl
  · exact tok _ (by simp)
  · refine .word _ (by simp) ?_
    intro c hc
    simp only [List.cons_append, List.mem_cons, List.mem_append, List.not_mem_nil, or_false] at hc
    rcases hc with rfl | (hc | rfl | hc) | rfl
    · decide
    · obtain ⟨h1, _, h3, _, _, _, h7, h8, _⟩ := Lemmas.PyStr.showInt_props x c hc; exact ⟨h1, h3, h7, h8⟩
    · decide
    · obtain ⟨h1, _, h3, _, _, _, h7, h8, _⟩ := Lemmas.PyStr.showInt_props y c hc; exact ⟨h1, h3, h7, h8⟩
    · decide
  · exact hs
  · exact tok _ (by simp)
  · exact tok _ (by simp)
  · exact tok _ (by simp)
  · exact tok _ (by simp)
  · exact tok _ (by simp)
  · exact .quoted s (fun c hc he => hq (he ▸ hc))

open Spec.QschTree (HasColon Token WellFormed) in
theorem newTag_lit (size : Str) (hs : Token size) (hc : ':' ∉ size) (x y : Int) (s : Str) (hq : '"' ∉ s) (hp : ¬ HasColon s) :
    ∃ t, newTag (textHead size x y) s = .ok (t, []) ∧ tagText t = some s := by
  have hcol : ¬ HasColon (List.intercalate [' '] (textToks size x y s)) := by
    rw [← Lemmas.Qsch.join_eq, textToks_join]
    intro h
    have e : textHead size x y ++ ('"' :: s ++ ['"']) = (textHead size x y ++ ['"']) ++ (s ++ ['"']) := by
      rw [List.append_assoc]; rfl
    rw [e] at h
    exact hp (colon_post s (colon_pre _ _ (head_colon size hc x y) h))
  have hw : WellFormed (.mk (textToks size x y s) []) := .leaf _ (.inl ⟨textToks_tokens size hs x y s hq, hcol⟩)
  refine ⟨.mk (textToks size x y s) [], ?_, ?_⟩
  · have hr := Props.Qsch.roundTrip _ hw 0 (Model.Qsch.join (textToks size x y s) ++ ['»']).length.succ [] (Nat.lt_succ_self _)
    rw [Props.Qsch.body] at hr
    unfold newTag
    have e : '«' :: textHead size x y ++ '"' :: s ++ ['"', '»'] = '«' :: (Model.Qsch.join (textToks size x y s) ++ ['»']) := by
      rw [textToks_join]
      simp only [List.append_assoc, List.cons_append, List.nil_append]
    rw [e]
    exact hr
  · unfold tagText
    rw [if_pos (by rfl)]
    have : (Model.Qsch.Tag.mk (textToks size x y s) []).getAttr 8 = some (.text s) := by
      show Model.Qsch.getToken ('"' :: s ++ ['"']) = _
      unfold Model.Qsch.getToken
      rw [if_neg (by simp), if_neg (by simp), if_pos ⟨rfl, by rw [List.getLast?_concat]⟩]
      simp
    rw [this]

/-! ### C66: parameters of components -/

/-- What a component shows: its reference, its value, and the parameters in the texts after them. Names differ. -/
structure Holds (c : Comp) (ref val : Str) (ps : Pairs) : Prop where
  texts : ∃ (ts : List Str) (pss : List Pairs), textsOf c.items = ref :: val :: ts ∧ List.Forall₂ Shows ts pss ∧ pss.flatten = ps
  distinct : (names ps).Nodup

theorem get_put (ed : Ed) (ref : Str) (c c' : Comp) (h : ed.get ref = some c) : (ed.put ref c').get ref = some c' ∧ ∀ r, r ≠ ref → (ed.put ref c').get r = ed.get r := by
  unfold Ed.get Ed.put
  simp only
  unfold Ed.get at h
  generalize ed.comps = l at *
  constructor
  · induction l with
    | nil => simp at h
    | cons e l ih =>
      obtain ⟨k, d⟩ := e
      by_cases hk : ref = k
      · subst hk; simp [List.lookup]
      · rw [List.lookup_cons, beq_eq_false_iff_ne.2 hk] at h
        simp only [List.map_cons, Ne.symm hk, if_false, List.lookup_cons, beq_eq_false_iff_ne.2 hk]
        exact ih h
  · intro r hr
    induction l with
    | nil => rfl
    | cons e l ih =>
      obtain ⟨k, d⟩ := e
      have ih' : List.lookup r (List.map (fun e => if e.1 = ref then (ref, c') else e) l) = List.lookup r l := by
        clear h ih
        induction l with
        | nil => rfl
        | cons e l ih =>
          obtain ⟨k, d⟩ := e
          by_cases hk : k = ref
          · subst hk
            simp only [List.map_cons, if_true, List.lookup_cons, beq_eq_false_iff_ne.2 hr]
            exact ih
          · simp only [List.map_cons, hk, if_false, List.lookup_cons]
            rw [ih]
      by_cases hk : k = ref
      · subst hk
        simp only [List.map_cons, if_true, List.lookup_cons, beq_eq_false_iff_ne.2 hr]
        exact ih'
      · simp only [List.map_cons, hk, if_false, List.lookup_cons]
        rw [ih']

theorem get_inform (ed : Ed) (n : Str) (v : Option Str) (u : UpdateType) (r : Str) : (ed.inform n v u).get r = ed.get r := by
  unfold Ed.inform
  by_cases h : ed.perm = .inform
  · rw [if_pos h]; rfl
  · rw [if_neg h]

theorem inform_frame (ed : Ed) (n : Str) (v : Option Str) (u : UpdateType) : (ed.inform n v u).texts = ed.texts ∧ (ed.inform n v u).perm = ed.perm := by
  unfold Ed.inform
  by_cases h : ed.perm = .inform
  · rw [if_pos h]; exact ⟨rfl, rfl⟩
  · rw [if_neg h]; exact ⟨rfl, rfl⟩

theorem forall₂_split (ts : List Str) (pss : List Pairs) (h : List.Forall₂ Shows ts pss) (k : Str) (hk : k ∈ names pss.flatten) :
    ∃ (A : List Str) (s : Str) (B : List Str) (PA : List Pairs) (p : Pairs) (PB : List Pairs), ts = A ++ s :: B ∧ pss = PA ++ p :: PB ∧
      List.Forall₂ Shows A PA ∧ Shows s p ∧ List.Forall₂ Shows B PB ∧ k ∈ names p ∧ k ∉ names PA.flatten := by
  induction h with
  | nil => simp [names] at hk
  | @cons s p ts pss h1 h2 ih =>
    by_cases hp : k ∈ names p
    · exact ⟨[], s, ts, [], p, pss, rfl, rfl, .nil, h1, h2, hp, by simp [names]⟩
    · have : k ∈ names pss.flatten := by
        simp only [names, List.flatten_cons, List.map_append, List.mem_append] at hk hp ⊢
        exact hk.resolve_left hp
      obtain ⟨A, s', B, PA, p', PB, e1, e2, h3, h4, h5, h6, h7⟩ := ih this
      refine ⟨s :: A, s', B, p :: PA, p', PB, by rw [e1]; rfl, by rw [e2]; rfl, .cons h1 h3, h4, h5, h6, ?_⟩
      simp only [names, List.flatten_cons, List.map_append, List.mem_append] at h7 hp ⊢
      exact fun h => h.elim hp h7

theorem no_hits (k : Str) (ts : List Str) (pss : List Pairs) (h : List.Forall₂ Shows ts pss) (hk : k ∉ names pss.flatten) : ∀ t ∈ ts, hit k t = none := by
  induction h with
  | nil => simp
  | @cons s p ts pss h1 h2 ih =>
    simp only [names, List.flatten_cons, List.map_append, List.mem_append, not_or] at hk ih
    intro t ht
    rcases List.mem_cons.1 ht with rfl | ht
    · exact hit_none t p h1 k hk.1
    · exact ih hk.2 t ht

theorem names_append (a b : Pairs) : names (a ++ b) = names a ++ names b := List.map_append ..

theorem assign_mid (k v : Str) (a p b : Pairs) (hn : (names (a ++ p ++ b)).Nodup) (hk : k ∈ names p) :
    assignPair k v (a ++ p ++ b) = a ++ assignPair k v p ++ b := by
  rw [names_append, names_append, List.nodup_append, List.nodup_append] at hn
  obtain ⟨⟨_, _, h1⟩, _, h2⟩ := hn
  have f : ∀ l : Pairs, k ∉ names l → l.map (fun e => if e.1 = k then (k, v) else e) = l := by
    intro l hl
    conv_rhs => rw [← List.map_id l]
    apply List.map_congr_left
    intro e he
    rw [if_neg (fun h => hl (by rw [← h]; exact List.mem_map_of_mem he))]
    rfl
  rw [assignPair, if_pos (by rw [names_append, names_append]; simp [hk]), assignPair, if_pos hk, List.map_append, List.map_append,
    f a (fun h => h1 k h k hk rfl), f b (fun h => h2 k (by simp [hk]) k h rfl)]

theorem remove_mid (k : Str) (a p b : Pairs) (hn : (names (a ++ p ++ b)).Nodup) (hk : k ∈ names p) :
    removePair k (a ++ p ++ b) = a ++ removePair k p ++ b := by
  rw [names_append, names_append, List.nodup_append, List.nodup_append] at hn
  obtain ⟨⟨_, _, h1⟩, _, h2⟩ := hn
  have f : ∀ l : Pairs, k ∉ names l → l.filter (fun e => e.1 ≠ k) = l := by
    intro l hl
    rw [List.filter_eq_self]
    intro e he
    simpa using fun h : e.1 = k => hl (by rw [← h]; exact List.mem_map_of_mem he)
  rw [removePair, removePair, List.filter_append, List.filter_append, f a (fun h => h1 k h k hk rfl), f b (fun h => h2 k (by simp [hk]) k h rfl)]

theorem names_assign (k v : Str) (ps : Pairs) (hk : k ∈ names ps) : names (assignPair k v ps) = names ps := by
  rw [assignPair, if_pos hk, names, names, List.map_map]
  apply List.map_congr_left
  intro e _
  by_cases h : e.1 = k
  · simp [h]
  · simp [h]

theorem nodup_remove (k : Str) (ps : Pairs) (hn : (names ps).Nodup) : (names (removePair k ps)).Nodup :=
  hn.sublist (List.Sublist.map _ List.filter_sublist)

/-- C66: a parameter that is there is set in its place: one value in one text of the component is replaced, all else stays, and the edit is recorded. -/
theorem C66_set (x y : Int) (ed : Ed) (ref val : Str) (c : Comp) (hc : ed.get ref = some c) (hp : ed.perm ≠ .deny) (ps : Pairs) (h : Holds c ref val ps)
    (k v : Str) (hv : Value v) (hk : k ∈ names ps) (hval : ¬ k <:+: val) :
    ∃ (ed' : Ed) (pre post : List Tag) (s s' : Str), setParameter x y ed ref k (some v) = (ed', none) ∧
      c.items = pre ++ .text s :: post ∧ ed'.get ref = some { c with items := pre ++ .text s' :: post } ∧ Replaced k v s s' ∧ 2 ≤ (textsOf pre).length ∧
      Holds { c with items := pre ++ .text s' :: post } ref val (assignPair k v ps) ∧
      (∀ r, r ≠ ref → ed'.get r = ed.get r) ∧ ed'.texts = ed.texts ∧ ed'.perm = ed.perm ∧
      (ed.perm = .inform → ed'.calls = ed.calls ++ [(ref ++ ':' :: k, some v, .updateComponentParameter)] ∧ ed'.canvas = true) := by
  obtain ⟨⟨ts, pss, ht, hf, rfl⟩, hn⟩ := h
  obtain ⟨A, s, B, PA, p, PB, rfl, rfl, f1, f2, f3, f4, f5⟩ := forall₂_split ts pss hf k hk
  have hfl : (PA ++ p :: PB).flatten = PA.flatten ++ p ++ PB.flatten := by simp
  rw [hfl] at hn ⊢
  have hnp : (names p).Nodup := by
    rw [names_append, names_append, List.nodup_append, List.nodup_append] at hn; exact hn.1.2.1
  obtain ⟨m, s', hm, hr, hR, hS⟩ := rewrite_set s p f2 hnp k v hv f4
  obtain ⟨pre, post, e, h1, h2, h3⟩ := edit_hit0 k (some v) m ref s B hm c.items (val :: A) (by rw [ht]; rfl) (by
    intro t ht'
    rcases List.mem_cons.1 ht' with rfl | ht'
    · exact hit_absent k _ hval
    · exact no_hits k A PA f1 f5 t ht')
  rw [hr] at h3
  have h3 : edit k (some v) 0 c.items = some (pre ++ .text s' :: post) := by rw [h3]; simp
  refine ⟨(ed.put ref { c with items := pre ++ .text s' :: post }).inform (ref ++ ':' :: k) (some v) .updateComponentParameter, pre, post, s, s', ?_, e, ?_, hR, by rw [h1]; simp, ⟨⟨A ++ s' :: B, PA ++ assignPair k v p :: PB, ?_, ?_, ?_⟩, ?_⟩, ?_⟩
  · unfold setParameter
    rw [hc]
    simp only [hp, if_false, h3]
    rfl
  · rw [get_inform]; exact (get_put ed ref c _ hc).1
  · rw [textsOf_append, textsOf_text, h1, h2]; rfl
  · exact List.rel_append f1 (.cons hS f3)
  · rw [assign_mid k v _ _ _ hn f4]; simp
  · rw [names_assign k v _ (by rw [names_append, names_append]; simp [f4])]; exact hn
  · refine ⟨fun r hr => by rw [get_inform]; exact (get_put ed ref c _ hc).2 r hr, ?_, ?_, ?_⟩
    · exact (inform_frame _ _ _ _).1
    · exact (inform_frame _ _ _ _).2
    · intro hi
      unfold Ed.inform
      rw [if_pos (show (ed.put ref _).perm = .inform from hi)]
      exact ⟨rfl, rfl⟩

/-- C66: removing a parameter takes its pair out of its text, and the text from the component when nothing else is in it. -/
theorem C66_remove (x y : Int) (ed : Ed) (ref val : Str) (c : Comp) (hc : ed.get ref = some c) (hp : ed.perm ≠ .deny) (ps : Pairs) (h : Holds c ref val ps)
    (k : Str) (hk : k ∈ names ps) (hval : ¬ k <:+: val) :
    ∃ (ed' : Ed) (pre post : List Tag) (s s' : Str), setParameter x y ed ref k none = (ed', none) ∧
      c.items = pre ++ .text s :: post ∧ Removed k s s' ∧ 2 ≤ (textsOf pre).length ∧
      ed'.get ref = some { c with items := pre ++ (if s' = [] then [] else [.text s']) ++ post } ∧
      Holds { c with items := pre ++ (if s' = [] then [] else [.text s']) ++ post } ref val (removePair k ps) ∧
      (∀ r, r ≠ ref → ed'.get r = ed.get r) ∧ ed'.texts = ed.texts ∧ ed'.perm = ed.perm ∧
      (ed.perm = .inform → ed'.calls = ed.calls ++ [(ref ++ ':' :: k, none, .deleteComponentParameter)] ∧ ed'.canvas = true) := by
  obtain ⟨⟨ts, pss, ht, hf, rfl⟩, hn⟩ := h
  obtain ⟨A, s, B, PA, p, PB, rfl, rfl, f1, f2, f3, f4, f5⟩ := forall₂_split ts pss hf k hk
  have hfl : (PA ++ p :: PB).flatten = PA.flatten ++ p ++ PB.flatten := by simp
  rw [hfl] at hn ⊢
  have hnp : (names p).Nodup := by
    rw [names_append, names_append, List.nodup_append, List.nodup_append] at hn; exact hn.1.2.1
  obtain ⟨m, s', hm, hR, hr, hS⟩ := rewrite_remove s p f2 hnp k f4
  obtain ⟨pre, post, e, h1, h2, h3⟩ := edit_hit0 k none m ref s B hm c.items (val :: A) (by rw [ht]; rfl) (by
    intro t ht'
    rcases List.mem_cons.1 ht' with rfl | ht'
    · exact hit_absent k _ hval
    · exact no_hits k A PA f1 f5 t ht')
  rw [hr] at h3
  have h3 : edit k none 0 c.items = some (pre ++ (if s' = [] then [] else [.text s']) ++ post) := by
    rw [h3]
    by_cases hz : s' = [] <;> simp [hz]
  refine ⟨(ed.put ref { c with items := pre ++ (if s' = [] then [] else [.text s']) ++ post }).inform (ref ++ ':' :: k) none .deleteComponentParameter, pre, post, s, s', ?_, e, hR, by rw [h1]; simp, ?_, ⟨?_, ?_⟩, ?_⟩
  · unfold setParameter
    rw [hc]
    simp only [hp, if_false, h3]
    rfl
  · rw [get_inform]; exact (get_put ed ref c _ hc).1
  · by_cases hz : s' = []
    · rw [if_pos hz]
      have hpe : removePair k p = [] := by
        have := find_shows s' _ hS
        rw [hz] at this
        exact this.symm
      refine ⟨A ++ B, PA ++ PB, ?_, List.rel_append f1 f3, ?_⟩
      · simp only [List.append_nil]; rw [textsOf_append, h1, h2]; rfl
      · rw [remove_mid k _ _ _ hn f4, hpe]; simp
    · rw [if_neg hz]
      refine ⟨A ++ s' :: B, PA ++ removePair k p :: PB, ?_, List.rel_append f1 (.cons hS f3), ?_⟩
      · rw [List.append_assoc]
        show textsOf (pre ++ .text s' :: post) = _
        rw [textsOf_append, textsOf_text, h1, h2]; rfl
      · rw [remove_mid k _ _ _ hn f4]; simp
  · exact nodup_remove k _ hn
  · refine ⟨fun r hr => by rw [get_inform]; exact (get_put ed ref c _ hc).2 r hr, ?_, ?_, ?_⟩
    · exact (inform_frame _ _ _ _).1
    · exact (inform_frame _ _ _ _).2
    · intro hi
      unfold Ed.inform
      rw [if_pos (show (ed.put ref _).perm = .inform from hi)]
      exact ⟨rfl, rfl⟩

/-- C66: removing a parameter that is not there does nothing. -/
theorem C66_remove_missing (x y : Int) (ed : Ed) (ref val : Str) (c : Comp) (hc : ed.get ref = some c) (hp : ed.perm ≠ .deny) (ps : Pairs)
    (h : Holds c ref val ps) (k : Str) (hk : k ∉ names ps) (hval : ¬ k <:+: val) : setParameter x y ed ref k none = (ed, none) := by
  obtain ⟨⟨ts, pss, ht, hf, rfl⟩, hn⟩ := h
  have h3 : edit k none 0 c.items = none := edit_miss0 k none ref c.items (val :: ts) ht (by
    intro t ht'
    rcases List.mem_cons.1 ht' with rfl | ht'
    · exact hit_absent k _ hval
    · exact no_hits k ts pss hf hk t ht')
  unfold setParameter
  rw [hc]
  simp only [hp, if_false, h3]

theorem name_chars (k : Str) (h : Name k) : '"' ∉ k ∧ ':' ∉ k ∧ ' ' ∉ k := by
  have key : ∀ c ∈ k, c ≠ '"' ∧ c ≠ ':' ∧ c ≠ ' ' := by
    intro c hc
    rcases h.2 c hc with h | h | rfl
    · exact ⟨by rintro rfl; exact absurd h (by decide), by rintro rfl; exact absurd h (by decide), by rintro rfl; exact absurd h (by decide)⟩
    · exact ⟨by rintro rfl; exact absurd h (by decide), by rintro rfl; exact absurd h (by decide), by rintro rfl; exact absurd h (by decide)⟩
    · decide
  exact ⟨fun h => (key _ h).1 rfl, fun h => (key _ h).2.1 rfl, fun h => (key _ h).2.2 rfl⟩

theorem shows_new (k v : Str) (hk : Name k) (hv : Value v) : Shows (k ++ '=' :: v) [(k, v)] := by
  apply Shows.pairs (items := [⟨[' '], k, ['='], v⟩]) (tail := [])
  · simp [Item.text]
  · intro i hi
    rw [List.mem_singleton] at hi
    subst hi
    exact ⟨by simp, by intro c hc; rw [List.mem_singleton] at hc; subst hc; rfl, hk, .inl ⟨[], [], rfl, by simp [Blank], by simp [Blank]⟩, hv⟩
  · intro c hc; simp at hc

theorem new_text (x y : Int) (k v : Str) (hk : Name k) (hv : Plain v) : ∃ t, newTag (textHead "0.5".toList x y) (k ++ '=' :: v) = .ok (t, []) ∧ tagText t = some (k ++ '=' :: v) := by
  have hn := name_chars k hk
  apply newTag_lit
  · apply Props.Qsch.token_word; decide +kernel
  · decide +kernel
  · intro h
    simp only [List.mem_append, List.mem_cons] at h
    rcases h with h | h | h
    · exact hn.1 h
    · exact absurd h (by decide)
    · exact hv.1 h
  · intro h
    have e : k ++ '=' :: v = (k ++ ['=']) ++ v := by simp
    rw [e] at h
    have := colon_pre (k ++ ['=']) v (by
      intro h
      rcases List.mem_append.1 h with h | h
      · exact hn.2.1 h
      · exact absurd h (by decide)) h
    obtain ⟨a, b, e⟩ := this
    exact hv.2 ⟨a, b, e.symm⟩

/-- C66: a parameter that is not there is added as a text of its own, after the other texts and before the pins. -/
theorem C66_add (x y : Int) (ed : Ed) (ref val : Str) (c : Comp) (hc : ed.get ref = some c) (hp : ed.perm ≠ .deny) (ps : Pairs) (h : Holds c ref val ps)
    (first : TextsFirst c.items) (k v : Str) (hname : Name k) (hv : Value v) (hplain : Plain v) (hk : k ∉ names ps) (hval : ¬ k <:+: val) :
    ∃ (ed' : Ed) (pre post : List Tag), setParameter x y ed ref k (some v) = (ed', none) ∧
      c.items = pre ++ post ∧ textsOf post = [] ∧ .pin ∉ pre ∧ ed'.get ref = some { c with items := pre ++ .text (k ++ '=' :: v) :: post } ∧
      Holds { c with items := pre ++ .text (k ++ '=' :: v) :: post } ref val (assignPair k v ps) ∧
      (∀ r, r ≠ ref → ed'.get r = ed.get r) ∧ ed'.texts = ed.texts ∧ ed'.perm = ed.perm ∧ ed'.canvas = true ∧
      (ed.perm = .inform → ed'.calls = ed.calls ++ [(ref ++ ':' :: k, some v, .addComponentParameter)]) := by
  obtain ⟨⟨ts, pss, ht, hf, rfl⟩, hn⟩ := h
  have h3 : edit k (some v) 0 c.items = none := edit_miss0 k (some v) ref c.items (val :: ts) ht (by
    intro t ht'
    rcases List.mem_cons.1 ht' with rfl | ht'
    · exact hit_absent k _ hval
    · exact no_hits k ts pss hf hk t ht')
  obtain ⟨t, e1, e2⟩ := new_text x y k v hname hplain
  obtain ⟨p, q, e, h1, h2, h4⟩ := insert_texts c.items first (by rw [ht]; simp) (k ++ '=' :: v)
  have hpt : textsOf p = ref :: val :: ts := by
    rw [e, textsOf_append, h1, List.append_nil] at ht; exact ht
  refine ⟨{ (ed.put ref { c with items := p ++ .text (k ++ '=' :: v) :: q }).inform (ref ++ ':' :: k) (some v) .addComponentParameter with canvas := true }, p, q, ?_, e, h1, h2, ?_, ⟨⟨ts ++ [k ++ '=' :: v], pss ++ [[(k, v)]], ?_, ?_, ?_⟩, ?_⟩, ?_, ?_, ?_, rfl, ?_⟩
  · unfold setParameter
    rw [hc]
    simp only [hp, if_false, h3, e1, e2, h4]
  · show ((ed.put ref _).inform _ _ _).get ref = _
    rw [get_inform]; exact (get_put ed ref c _ hc).1
  · rw [textsOf_append, textsOf_text, h1, hpt]; rfl
  · exact List.rel_append hf (.cons (shows_new k v hname hv) .nil)
  · rw [assignPair, if_neg hk]; simp
  · rw [assignPair, if_neg hk, names_append, List.nodup_append]
    exact ⟨hn, by simp [names], by
      intro a ha b hb hab
      simp only [names, List.map_cons, List.map_nil, List.mem_singleton] at hb
      exact hk (by rw [← hb, ← hab]; exact ha)⟩
  · intro r hr
    show ((ed.put ref _).inform _ _ _).get r = _
    rw [get_inform]; exact (get_put ed ref c _ hc).2 r hr
  · show ((ed.put ref _).inform _ _ _).texts = _
    unfold Ed.inform; split <;> rfl
  · show ((ed.put ref _).inform _ _ _).perm = _
    unfold Ed.inform; split <;> rfl
  · intro hi
    show ((ed.put ref _).inform _ _ _).calls = _
    unfold Ed.inform
    rw [if_pos (show (ed.put ref _).perm = .inform from hi)]
    rfl

/-! #### Reading -/

theorem lookup_putKey (k x : Key) (v : Str) (d : List (Key × Str)) : (putKey k v d).lookup x = if x = k then some v else d.lookup x := by
  induction d with
  | nil =>
    by_cases h : x = k
    · subst h; simp [putKey, List.lookup]
    · simp [putKey, List.lookup, h, beq_eq_false_iff_ne.2 h]
  | cons e d ih =>
    obtain ⟨k', w⟩ := e
    by_cases hk : k' = k
    · subst hk
      simp only [putKey, if_true, List.lookup_cons]
      by_cases h : x = k'
      · subst h; simp
      · simp [h, beq_eq_false_iff_ne.2 h]
    · simp only [putKey, hk, if_false, List.lookup_cons, ih]
      by_cases h : x = k'
      · subst h; simp [hk]
      · simp [beq_eq_false_iff_ne.2 h]

theorem lookup_names (k : Str) (ms : List Match) : ∀ (d : List (Key × Str)), ((ms.map (fun m => (m.name, m.value))).map Prod.fst).Nodup →
    (ms.foldl (fun d m => putKey (.name m.name) m.value d) d).lookup (.name k) = ((ms.map (fun m => (m.name, m.value))).lookup k).or (d.lookup (.name k)) := by
  induction ms with
  | nil => intro d _; rfl
  | cons m ms ih =>
    intro d hn
    simp only [List.map_cons, List.nodup_cons] at hn
    rw [List.foldl_cons, ih _ hn.2, lookup_putKey]
    by_cases h : k = m.name
    · subst h
      simp only [if_true, List.map_cons, List.lookup_cons, beq_self_eq_true, Option.some_or]
      rw [(lookup_none _ _).2 hn.1]; rfl
    · have : (Key.name k = Key.name m.name) = False := by simp [h]
      simp only [this, if_false, List.map_cons, List.lookup_cons, beq_eq_false_iff_ne.2 h]

theorem lookup_lines (i : Nat) (ms : List Match) : ∀ (d : List (Key × Str)), (ms.foldl (fun d m => putKey (.name m.name) m.value d) d).lookup (.line i) = d.lookup (.line i) := by
  induction ms with
  | nil => intro d; rfl
  | cons m ms ih => intro d; rw [List.foldl_cons, ih, lookup_putKey, if_neg (by simp)]

theorem readTexts_names (k : Str) (ts : List Str) (pss : List Pairs) (hf : List.Forall₂ Shows ts pss) : ∀ (i : Nat) (d : List (Key × Str)), (names pss.flatten).Nodup →
    (readTexts i ts d).lookup (.name k) = (pss.flatten.lookup k).or (d.lookup (.name k)) := by
  induction hf with
  | nil => intro i d _; rfl
  | @cons s p ts pss h1 h2 ih =>
    intro i d hn
    rw [List.flatten_cons, names_append, List.nodup_append] at hn
    have e := find_shows s p h1
    rw [readTexts, ih (i + 1) _ hn.2.1, readText, lookup_putKey, if_neg (by simp), lookup_names k _ _ (by rw [e]; exact hn.1), e, List.flatten_cons, lookup_append]
    cases hp : p.lookup k with
    | none => simp
    | some v =>
      have : k ∈ names p := by
        by_contra hh
        rw [(lookup_none p k).2 hh] at hp; cases hp
      have hq : pss.flatten.lookup k = none := (lookup_none _ _).2 (fun h => hn.2.2 k this k h rfl)
      rw [hq]; rfl

theorem readTexts_lines (j : Nat) (ts : List Str) : ∀ (i : Nat) (d : List (Key × Str)), (∀ n, i ≤ n → d.lookup (.line n) = none) →
    (readTexts i ts d).lookup (.line j) = if j < i then d.lookup (.line j) else ts[j - i]? := by
  induction ts with
  | nil =>
    intro i d h
    rw [readTexts]
    by_cases hj : j < i
    · rw [if_pos hj]
    · rw [if_neg hj, h j (by omega)]; simp
  | cons s ts ih =>
    intro i d h
    rw [readTexts, ih (i + 1)]
    · rw [readText, lookup_putKey, lookup_lines]
      by_cases hj : j < i
      · have : ¬ (Key.line j = Key.line i) := by simp; omega
        rw [if_pos hj, if_pos (by omega), if_neg this]
      · rw [if_neg hj]
        by_cases he : j = i
        · subst he; simp
        · have : ¬ (j < i + 1) := by omega
          rw [if_neg this, show j - i = (j - (i + 1)) + 1 by omega]; simp
    · intro n hn
      rw [readText, lookup_putKey, lookup_lines, if_neg (by simp; omega), h n (by omega)]

/-- C66: the dictionary has each parameter of the texts after the value, by name, and each of these texts, by its number. -/
theorem C66_get (ed : Ed) (ref val : Str) (c : Comp) (hc : ed.get ref = some c) (ps : Pairs) (h : Holds c ref val ps) :
    ∃ d, getComponentParameters ed ref = .ok d ∧ (∀ k, d.lookup (.name k) = ps.lookup k) ∧
      ∀ i, d.lookup (.line i) = if i < 2 then none else (textsOf c.items)[i]? := by
  obtain ⟨⟨ts, pss, ht, hf, rfl⟩, hn⟩ := h
  refine ⟨getParameters c, by rw [getComponentParameters, hc], ?_, ?_⟩
  · intro k
    rw [getParameters, ht]
    show (readTexts 2 ts []).lookup _ = _
    rw [readTexts_names k ts pss hf 2 [] hn]; simp
  · intro i
    rw [getParameters, ht]
    show (readTexts 2 ts []).lookup _ = _
    rw [readTexts_lines i ts 2 [] (by intro n _; rfl)]
    by_cases hi : i < 2
    · rw [if_pos hi, if_pos hi]; rfl
    · rw [if_neg hi, if_neg hi, show i = (i - 2) + 1 + 1 by omega]; simp

/-! #### Histories -/

/-- The value of a parameter as get_component_parameters gives it. -/
def reading (ed : Ed) (ref k : Str) : Option Str :=
  match getComponentParameters ed ref with
  | .ok d => d.lookup (.name k)
  | .error _ => none

structure Op where
  x : Int
  y : Int
  key : Str
  value : Option Str

/-- Calls of set_component_parameters, one after another. -/
def run (ref : Str) : List Op → Ed → Ed × Option Err
  | [], ed => (ed, none)
  | o :: ops, ed =>
    match setParameter o.x o.y ed ref o.key o.value with
    | (ed', none) => run ref ops ed'
    | (ed', some e) => (ed', some e)

theorem lookup_assign (k v x : Str) (ps : Pairs) : (assignPair k v ps).lookup x = if x = k then some v else ps.lookup x := by
  unfold assignPair
  by_cases hk : k ∈ names ps
  · rw [if_pos hk]
    induction ps with
    | nil => simp [names] at hk
    | cons p ps ih =>
      obtain ⟨a, b⟩ := p
      by_cases ha : a = k
      · subst ha
        simp only [List.map_cons, if_true, List.lookup_cons]
        by_cases hx : x = a
        · subst hx; simp
        · simp only [beq_eq_false_iff_ne.2 hx, hx, if_false]
          clear ih hk
          induction ps with
          | nil => rfl
          | cons p ps ih =>
            obtain ⟨a', b'⟩ := p
            by_cases ha : a' = a
            · subst ha; simp [List.lookup_cons, beq_eq_false_iff_ne.2 hx, ih]
            · simp [List.lookup_cons, ha, ih]
      · have hk' : k ∈ names ps := by simpa [names, Ne.symm ha] using hk
        simp only [List.map_cons, ha, if_false, List.lookup_cons, ih hk']
        by_cases hx : x = a
        · subst hx; simp [ha]
        · simp [beq_eq_false_iff_ne.2 hx]
  · rw [if_neg hk, lookup_append]
    by_cases hx : x = k
    · subst hx; rw [(lookup_none ps x).2 hk]; simp
    · simp [hx, List.lookup_cons, beq_eq_false_iff_ne.2 hx]

theorem lookup_remove (k x : Str) (ps : Pairs) : (removePair k ps).lookup x = if x = k then none else ps.lookup x := by
  unfold removePair
  induction ps with
  | nil => simp
  | cons p ps ih =>
    obtain ⟨a, b⟩ := p
    by_cases ha : a = k
    · subst ha
      rw [List.filter_cons, if_neg (by simp), ih, List.lookup_cons]
      by_cases hx : x = a
      · simp [hx]
      · simp [hx, beq_eq_false_iff_ne.2 hx]
    · rw [List.filter_cons, if_pos (by simp [ha]), List.lookup_cons, ih, List.lookup_cons]
      by_cases hx : x = a
      · subst hx; simp [ha]
      · simp [beq_eq_false_iff_ne.2 hx]

theorem first_replace (pre post : List Tag) (s : Str) (l : List Tag) (hl : ∀ t ∈ l, t ≠ .pin) (h : TextsFirst (pre ++ .text s :: post)) : TextsFirst (pre ++ l ++ post) := by
  obtain ⟨a, b, e, ha, hb⟩ := h
  -- the text is in the part before the pins
  rcases List.append_eq_append_iff.1 e with ⟨c, h1, h2⟩ | ⟨c, h1, h2⟩
  · -- a = pre ++ c, text s :: post = c ++ b
    cases c with
    | nil =>
      rw [List.nil_append] at h2
      rw [← h2, textsOf_text] at hb; cases hb
    | cons z c =>
      simp only [List.cons_append, List.cons.injEq] at h2
      obtain ⟨rfl, rfl⟩ := h2
      refine ⟨pre ++ l ++ c, b, by simp, ?_, hb⟩
      rw [h1] at ha
      simp only [List.mem_append, List.mem_cons, not_or] at ha ⊢
      exact ⟨⟨ha.1, fun h => hl _ h rfl⟩, ha.2.2⟩
  · rw [h2, textsOf_append, textsOf_text] at hb
    simp at hb

/-- C66: after any history of settings and removals, each parameter reads as the value given to it last, or as at the start when it was never set;
none when it was removed last. Value, other components and the texts of the sheet are as before. -/
theorem C66_history (ref val : Str) : ∀ (ops : List Op) (ed : Ed) (c : Comp) (ps : Pairs), ed.get ref = some c → ed.perm ≠ .deny → Holds c ref val ps →
    TextsFirst c.items → (∀ o ∈ ops, Name o.key ∧ ¬ o.key <:+: val ∧ ∀ v, o.value = some v → Value v ∧ Plain v) →
    ∃ (ed' : Ed) (c' : Comp) (ps' : Pairs), run ref ops ed = (ed', none) ∧ ed'.get ref = some c' ∧ Holds c' ref val ps' ∧ c'.value = c.value ∧
      (∀ k, reading ed' ref k = valueAfter id k (reading ed ref k) (ops.map (fun o => (o.key, o.value)))) ∧
      (∀ r, r ≠ ref → ed'.get r = ed.get r) ∧ ed'.texts = ed.texts := by
  intro ops
  induction ops with
  | nil => intro ed c ps hc _ h _ _; exact ⟨ed, c, ps, rfl, hc, h, rfl, fun _ => rfl, fun _ _ => rfl, rfl⟩
  | cons o ops ih =>
    intro ed c ps hc hp h hf hok
    have hread : ∀ (e : Ed) (d : Comp) (qs : Pairs), e.get ref = some d → Holds d ref val qs → ∀ k, reading e ref k = qs.lookup k := by
      intro e d qs hd hh k
      obtain ⟨dd, h1, h2, _⟩ := C66_get e ref val d hd qs hh
      rw [reading, h1]; exact h2 k
    obtain ⟨hn, hv0, hv⟩ := hok o (by simp)
    have step : ∃ (ed1 : Ed) (c1 : Comp) (ps1 : Pairs), setParameter o.x o.y ed ref o.key o.value = (ed1, none) ∧ ed1.get ref = some c1 ∧ Holds c1 ref val ps1 ∧
        TextsFirst c1.items ∧ c1.value = c.value ∧ (∀ k, ps1.lookup k = if o.key = k then o.value.map id else ps.lookup k) ∧
        (∀ r, r ≠ ref → ed1.get r = ed.get r) ∧ ed1.texts = ed.texts ∧ ed1.perm = ed.perm := by
      cases ho : o.value with
      | none =>
        by_cases hk : o.key ∈ names ps
        · obtain ⟨ed1, pre, post, s, s', r1, r2, r3, _, r4, r5, r6, r7, r8, _⟩ := C66_remove o.x o.y ed ref val c hc hp ps h o.key hk hv0
          refine ⟨ed1, _, _, r1, r4, r5, first_replace pre post s _ ?_ (by rw [← r2]; exact hf), rfl, ?_, r6, r7, r8⟩
          · intro t ht
            by_cases hz : s' = []
            · simp [hz] at ht
            · simp only [hz, if_false, List.mem_singleton] at ht; subst ht; simp
          · intro k
            rw [lookup_remove]
            by_cases e : k = o.key
            · simp [e]
            · simp [e, Ne.symm e]
        · refine ⟨ed, c, ps, C66_remove_missing o.x o.y ed ref val c hc hp ps h o.key hk hv0, hc, h, hf, rfl, ?_, fun _ _ => rfl, rfl, rfl⟩
          intro k
          by_cases e : o.key = k
          · subst e; simp [(lookup_none ps _).2 hk]
          · simp [e]
      | some v =>
        obtain ⟨hval, hpl⟩ := hv v ho
        by_cases hk : o.key ∈ names ps
        · obtain ⟨ed1, pre, post, s, s', r1, r2, r3, _, _, r5, r6, r7, r8, _⟩ := C66_set o.x o.y ed ref val c hc hp ps h o.key v hval hk hv0
          refine ⟨ed1, _, _, r1, r3, r5, ?_, rfl, ?_, r6, r7, r8⟩
          · have := first_replace pre post s [.text s'] (by simp) (by rw [← r2]; exact hf)
            simpa using this
          · intro k
            rw [lookup_assign]
            by_cases e : k = o.key
            · simp [e]
            · simp [e, Ne.symm e]
        · obtain ⟨ed1, pre, post, r1, r2, r3, r4, r5, r6, r7, r8, r9, _⟩ := C66_add o.x o.y ed ref val c hc hp ps h hf o.key v hn hval hpl hk hv0
          refine ⟨ed1, _, _, r1, r5, r6, ⟨pre ++ [.text (o.key ++ '=' :: v)], post, by simp, ?_, r3⟩, rfl, ?_, r7, r8, r9⟩
          · simpa using r4
          · intro k
            rw [lookup_assign]
            by_cases e : k = o.key
            · simp [e]
            · simp [e, Ne.symm e]
    obtain ⟨ed1, c1, ps1, s1, s2, s3, s4, s5, s6, s7, s8, s9⟩ := step
    obtain ⟨ed', c', ps', t1, t2, t3, t4, t5, t6, t7⟩ := ih ed1 c1 ps1 s2 (by rw [s9]; exact hp) s3 s4 (fun o' ho' => hok o' (by simp [ho']))
    refine ⟨ed', c', ps', ?_, t2, t3, by rw [t4, s5], ?_, fun r hr => by rw [t6 r hr, s7 r hr], by rw [t7, s8]⟩
    · rw [run, s1]; exact t1
    · intro k
      rw [t5 k, List.map_cons, valueAfter, hread ed1 c1 ps1 s2 s3 k, s6 k, hread ed c ps hc h k]

/-! ### C66: values -/

theorem setText_lit (v : Str) : ∀ (items : List Tag) (A : List Str) (old : Str) (B : List Str), textsOf items = A ++ old :: B →
    ∃ pre post : List Tag, items = pre ++ .text old :: post ∧ textsOf pre = A ∧ textsOf post = B ∧ setText v A.length items = pre ++ .text v :: post := by
  intro items
  induction items with
  | nil => intro A old B h; simp [textsOf] at h
  | cons t items ih =>
    intro A old B h
    cases t with
    | pin =>
      obtain ⟨pre, post, e, h1, h2, h3⟩ := ih A old B h
      refine ⟨.pin :: pre, post, by rw [e]; rfl, h1, h2, ?_⟩
      rw [List.cons_append, ← h3]
      cases A.length <;> rfl
    | other a =>
      obtain ⟨pre, post, e, h1, h2, h3⟩ := ih A old B h
      refine ⟨.other a :: pre, post, by rw [e]; rfl, h1, h2, ?_⟩
      rw [List.cons_append, ← h3]
      cases A.length <;> rfl
    | text x =>
      have h' : x :: textsOf items = A ++ old :: B := h
      cases A with
      | nil =>
        simp only [List.nil_append, List.cons.injEq] at h'
        obtain ⟨rfl, h'⟩ := h'
        exact ⟨[], items, rfl, rfl, h', rfl⟩
      | cons a A =>
        simp only [List.cons_append, List.cons.injEq] at h'
        obtain ⟨rfl, h'⟩ := h'
        obtain ⟨pre, post, e, h1, h2, h3⟩ := ih A old B h'
        refine ⟨.text x :: pre, post, by rw [e]; rfl, by rw [← h1]; rfl, h2, ?_⟩
        rw [List.cons_append, ← h3]; rfl

/-- C66: set_component_value replaces the second text of the symbol, and what get_component_value gives; nothing else. -/
theorem C66_set_value (ed : Ed) (ref old v : Str) (c : Comp) (rest : List Str) (hc : ed.get ref = some c) (hp : ed.perm ≠ .deny)
    (ht : textsOf c.items = ref :: old :: rest) :
    ∃ (ed' : Ed) (pre post : List Tag), setComponentValue ed ref v = (ed', none) ∧ c.items = pre ++ .text old :: post ∧ textsOf pre = [ref] ∧
      ed'.get ref = some { items := pre ++ .text v :: post, value := v, onSheet := c.onSheet } ∧
      (getComponentValue ed' ref).toOption = some v ∧ (∀ r, r ≠ ref → ed'.get r = ed.get r) ∧ ed'.texts = ed.texts ∧
      (ed.perm = .inform → ed'.calls = ed.calls ++ [(ref, some v, .updateComponentValue)] ∧ ed'.canvas = true) := by
  obtain ⟨pre, post, e, h1, h2, h3⟩ := setText_lit v c.items [ref] old rest ht
  have hg : ((ed.put ref { c with items := pre ++ .text v :: post, value := v }).inform ref (some v) .updateComponentValue).get ref = _ :=
    (get_inform _ _ _ _ _).trans (get_put ed ref c _ hc).1
  refine ⟨(ed.put ref { c with items := pre ++ .text v :: post, value := v }).inform ref (some v) .updateComponentValue, pre, post, ?_, e, h1, hg, ?_, ?_, (inform_frame _ _ _ _).1, ?_⟩
  · unfold setComponentValue setModel
    rw [if_neg hp, hc]
    simp only [hp, if_false, ht, if_true]
    rw [show setText v 1 c.items = pre ++ .text v :: post from h3]
  · unfold getComponentValue
    rw [hg]; rfl
  · intro r hr
    rw [get_inform]; exact (get_put ed ref c _ hc).2 r hr
  · intro hi
    unfold Ed.inform
    rw [if_pos (show (ed.put ref _).perm = .inform from hi)]
    exact ⟨rfl, rfl⟩

/-- C66: what is not there cannot be read or set, and nothing changes. -/
theorem C66_unknown_component (x y : Int) (ed : Ed) (ref k v : Str) (w : Option Str) (h : ed.get ref = none) (hp : ed.perm ≠ .deny) :
    setParameter x y ed ref k w = (ed, some .notFound) ∧ setComponentValue ed ref v = (ed, some .notFound) ∧ removeComponent ed ref = (ed, some .notFound) ∧
    (getComponentValue ed ref).toOption = none ∧ (getComponentParameters ed ref).toOption = none := by
  refine ⟨by rw [setParameter, h], by rw [setComponentValue, if_neg hp, setModel, h], by rw [removeComponent, if_neg hp, h], ?_, ?_⟩
  · rw [getComponentValue, h]; rfl
  · rw [getComponentParameters, h]; rfl

/-- C66: removing a component takes its tag from the sheet and is recorded; other components and the texts of the sheet stay. -/
theorem C66_remove_component (ed : Ed) (ref : Str) (c : Comp) (hc : ed.get ref = some c) (hp : ed.perm ≠ .deny) (hs : c.onSheet = true) :
    ∃ ed' : Ed, removeComponent ed ref = (ed', none) ∧ ed'.get ref = some { c with onSheet := false } ∧ (∀ r, r ≠ ref → ed'.get r = ed.get r) ∧
      ed'.texts = ed.texts ∧ ed'.calls = ed.calls ++ [(ref, none, .deleteComponent)] ∧ ed'.canvas = true := by
  refine ⟨(ed.put ref { c with onSheet := false }).record ref none .deleteComponent, by rw [removeComponent, if_neg hp, hc]; simp only [hs, if_true], (get_put ed ref c _ hc).1, (get_put ed ref c _ hc).2, rfl, rfl, rfl⟩

/-- C66, limit: a removed component is still listed, still has its value, and removing it again is an error. -/
theorem C66_removed_is_listed (ed ed' : Ed) (ref : Str) (h : removeComponent ed ref = (ed', none)) (hp : ed.perm ≠ .deny) :
    getComponents ed' = getComponents ed ∧ (getComponentValue ed' ref).toOption = (getComponentValue ed ref).toOption ∧
    (removeComponent ed' ref).2 = some .value := by
  unfold removeComponent at h
  rw [if_neg hp] at h
  cases hc : ed.get ref with
  | none => rw [hc] at h; simp at h
  | some c =>
    rw [hc] at h
    simp only at h
    by_cases hs : c.onSheet = true
    · rw [if_pos hs] at h
      simp only [Prod.mk.injEq, and_true] at h
      subst h
      have hg := (get_put ed ref c { c with onSheet := false } hc).1
      have hg' : ((ed.put ref { c with onSheet := false }).record ref none .deleteComponent).get ref = some { c with onSheet := false } := hg
      refine ⟨?_, ?_, ?_⟩
      · unfold getComponents Ed.record Ed.put
        rw [List.map_map]
        apply List.map_congr_left
        intro e _
        by_cases he : e.1 = ref <;> simp [he]
      · unfold getComponentValue
        rw [hg', hc]
      · unfold removeComponent
        rw [if_neg (show ¬ ((ed.put ref { c with onSheet := false }).record ref none .deleteComponent).perm = Perm.deny from hp), hg']
        rfl
    · rw [if_neg hs] at h
      simp at h

/-! ### C66: a case, and limits -/

def sample (items : List Tag) (value : Str) : Ed := ⟨.inform, [("R1".toList, ⟨items, value, true⟩)], [], [], false⟩

def sampleItems : List Tag := [.other 1, .text "R1".toList, .text "1K".toList, .text "tc1=0.1 tc2 = {a b}".toList, .text "hot".toList, .pin, .pin]

theorem C66_sample : Holds ⟨sampleItems, "1K".toList, true⟩ "R1".toList "1K".toList [("tc1".toList, "0.1".toList), ("tc2".toList, "{a b}".toList)] ∧
    TextsFirst sampleItems ∧ Value "5m".toList ∧ Plain "5m".toList ∧ ¬ "tc1".toList <:+: "1K".toList := by
  refine ⟨⟨⟨["tc1=0.1 tc2 = {a b}".toList, "hot".toList], [[("tc1".toList, "0.1".toList), ("tc2".toList, "{a b}".toList)], []], rfl, ?_, rfl⟩, by decide⟩, ?_, ?_, ?_, ?_⟩
  · refine .cons ?_ (.cons (.word _ (by decide) (by decide)) .nil)
    apply Shows.pairs (items := [⟨[' '], "tc1".toList, ['='], "0.1".toList⟩, ⟨[' '], "tc2".toList, [' ', '=', ' '], "{a b}".toList⟩]) (tail := [])
    · decide +kernel
    · intro i hi
      simp only [List.mem_cons, List.not_mem_nil, or_false] at hi
      rcases hi with rfl | rfl
      · refine ⟨by simp, by simp [Blank]; rfl, ⟨by simp, ?_⟩, .inl ⟨[], [], rfl, by simp [Blank], by simp [Blank]⟩, .inr (.inr ⟨"0.1".toList, [], by simp, by simp, ?_, by simp⟩)⟩
        · unfold NameChar; decide +kernel
        · unfold NumChar; decide +kernel
      · refine ⟨by simp, by simp [Blank]; rfl, ⟨by simp, ?_⟩, .inl ⟨[' '], [' '], rfl, by simp [Blank]; rfl, by simp [Blank]; rfl⟩, .inl ⟨"a b".toList, rfl, by decide⟩⟩
        unfold NameChar; decide +kernel
    · simp [Blank]
  · exact ⟨[.other 1, .text "R1".toList, .text "1K".toList, .text "tc1=0.1 tc2 = {a b}".toList, .text "hot".toList], [.pin, .pin], rfl, by decide +kernel, rfl⟩
  · refine .inr (.inr ⟨['5'], ['m'], rfl, by simp, ?_, ?_⟩)
    · unfold NumChar; decide
    · decide
  · refine ⟨by decide, ?_⟩
    rintro ⟨a, b, h⟩
    have : ':' ∈ "5m".toList := by rw [h]; simp
    exact absurd this (by decide)
  · decide +kernel

def items? (ed : Ed) (ref : Str) : Option (List Tag) := (ed.get ref).map Comp.items

/-- C66, limit: a name that occurs in the value is set there; it is not read back, and get_component_value does not see it either. -/
theorem C66_in_value :
    let ed' := (setParameter 0 0 (sample [.text "R1".toList, .text "1k tc=1".toList] "1k tc=1".toList) "R1".toList "tc".toList (some "2".toList)).1
    items? ed' "R1".toList = some [.text "R1".toList, .text "1k tc=2".toList] ∧ reading ed' "R1".toList "tc".toList = none ∧
    (getComponentValue ed' "R1".toList).toOption = some "1k tc=1".toList := by
  decide +kernel

/-- C66, limit: names are compared letter by letter: another spelling is added as a second parameter. -/
theorem C66_case : items? (setParameter 0 0 (sample [.text "R1".toList, .text "1k".toList, .text "tc=1".toList] "1k".toList) "R1".toList "TC".toList (some "2".toList)).1 "R1".toList =
    some [.text "R1".toList, .text "1k".toList, .text "tc=1".toList, .text "TC=2".toList] := by
  decide +kernel

/-- C66, limit: a quotation mark in a new value raises, and a colon with a blank makes a tag that is no text. -/
theorem C66_not_plain :
    (setParameter 0 0 (sample [.text "X1".toList, .text "sub".toList] []) "R1".toList "file".toList (some "\"a\"b\"".toList)).2 = some .parse ∧
    items? (setParameter 0 0 (sample [.text "R1".toList, .text "1k".toList] []) "R1".toList "note".toList (some "a: b".toList)).1 "R1".toList =
      some [.text "R1".toList, .text "1k".toList, .other 0] := by
  decide +kernel

/-- C66, limit: when a pin comes first the new text is put before it, and becomes the reference. -/
theorem C66_pin_first : items? (setParameter 0 0 (sample [.pin, .text "R1".toList, .text "1k".toList] []) "R1".toList "tc".toList (some "1".toList)).1 "R1".toList =
    some [.text "tc=1".toList, .pin, .text "R1".toList, .text "1k".toList] := by
  decide +kernel

end Props.QComp
