import Verif.Model.SchComp
import Verif.Spec.SchComp
import Verif.Lemmas.ParamRegex
import Mathlib.Data.List.Nodup
import Mathlib.Data.List.Basic
/-
C65: parameters of components of LTspice schematics.
-/
namespace Props.SchComp
open Model.SchComp Model.PyStr
open Model.ParamRegex (findIter)
open Spec.SchComp
open Spec.ParamLine hiding Str
open Model.Netlist (Perm)
open Model.Updates (UpdateType)
open Lemmas.ParamRegex

/-! ### Dictionaries -/

theorem lookup_put {V : Type} (k x : Str) (v : V) (d : Dict V) : (put k v d).lookup x = if x = k then some v else d.lookup x := by
  induction d with
  | nil =>
    by_cases h : x = k
    · subst h; simp [put, List.lookup]
    · simp [put, List.lookup, h, beq_eq_false_iff_ne.2 h]
  | cons e d ih =>
    obtain ⟨k', w⟩ := e
    rw [put]
    by_cases hk : k' = k
    · subst hk
      rw [if_pos rfl]
      by_cases h : x = k'
      · subst h; simp [List.lookup]
      · simp [List.lookup, h, beq_eq_false_iff_ne.2 h]
    · rw [if_neg hk]
      by_cases h : x = k'
      · subst h; simp [List.lookup, hk]
      · simp only [List.lookup, beq_eq_false_iff_ne.2 h]
        exact ih

theorem keys_put {V : Type} (k : Str) (v : V) (d : Dict V) : (put k v d).map Prod.fst = if k ∈ d.map Prod.fst then d.map Prod.fst else d.map Prod.fst ++ [k] := by
  induction d with
  | nil => simp [put]
  | cons e d ih =>
    obtain ⟨k', w⟩ := e
    rw [put]
    by_cases hk : k' = k
    · subst hk; simp
    · rw [if_neg hk]
      simp only [List.map_cons, ih, List.mem_cons, Ne.symm hk, false_or]
      by_cases h : k ∈ d.map Prod.fst
      · rw [if_pos h, if_pos h]
      · rw [if_neg h, if_neg h, List.cons_append]

theorem nodup_put {V : Type} (k : Str) (v : V) (d : Dict V) (h : (d.map Prod.fst).Nodup) : ((put k v d).map Prod.fst).Nodup := by
  rw [keys_put]
  by_cases hk : k ∈ d.map Prod.fst
  · rw [if_pos hk]; exact h
  · rw [if_neg hk]
    exact List.nodup_append.2 ⟨h, by simp, by rintro a ha b hb rfl; simp at hb; subst hb; exact hk ha⟩

theorem lookup_mem {V : Type} (d : Dict V) (h : (d.map Prod.fst).Nodup) (k : Str) (v : V) : (k, v) ∈ d ↔ d.lookup k = some v := by
  induction d with
  | nil => simp
  | cons e d ih =>
    obtain ⟨k', w⟩ := e
    simp only [List.map_cons, List.nodup_cons] at h
    by_cases hk : k = k'
    · subst hk
      simp only [List.mem_cons, Prod.mk.injEq, true_and, List.lookup, beq_self_eq_true, Option.some.injEq]
      constructor
      · rintro (rfl | m)
        · rfl
        · exact absurd (List.mem_map.2 ⟨_, m, rfl⟩) h.1
      · rintro rfl; exact Or.inl rfl
    · simp only [List.mem_cons, Prod.mk.injEq, hk, false_and, false_or, List.lookup, beq_eq_false_iff_ne.2 hk]
      exact ih h.2

theorem lookup_none {V : Type} (d : Dict V) (k : Str) : d.lookup k = none ↔ k ∉ d.map Prod.fst := by
  induction d with
  | nil => simp
  | cons e d ih =>
    obtain ⟨k', w⟩ := e
    by_cases hk : k = k'
    · subst hk; simp [List.lookup]
    · simp only [List.lookup, beq_eq_false_iff_ne.2 hk, ih, List.map_cons, List.mem_cons, hk, false_or]

/-- filling a dictionary with entries that agree on a name -/
theorem lookup_fill {V : Type} (x : Str) (y : V) (L : List (Str × V)) (hy : ∀ z, (x, z) ∈ L → z = y) : ∀ acc : Dict V,
    (L.foldl (fun d e => put e.1 e.2 d) acc).lookup x = if x ∈ L.map Prod.fst then some y else acc.lookup x := by
  induction L with
  | nil => intro acc; simp
  | cons e L ih =>
    intro acc
    obtain ⟨k, v⟩ := e
    rw [List.foldl_cons, ih (fun z hz => hy z (by simp [hz])), lookup_put]
    by_cases hm : x ∈ L.map Prod.fst
    · rw [if_pos hm, if_pos (by simp only [List.map_cons, List.mem_cons]; exact Or.inr hm)]
    · rw [if_neg hm]
      by_cases hk : x = k
      · subst hk
        rw [if_pos rfl, if_pos (by simp), hy v (by simp)]
      · rw [if_neg hk, if_neg (by simp only [List.map_cons, List.mem_cons]; rintro (h | h); exacts [hk h, hm h])]

theorem put_fresh {V : Type} (k : Str) (v : V) (d : Dict V) (h : k ∉ d.map Prod.fst) : put k v d = d ++ [(k, v)] := by
  induction d with
  | nil => rfl
  | cons e d ih =>
    obtain ⟨k', w⟩ := e
    simp only [List.map_cons, List.mem_cons, not_or] at h
    rw [put, if_neg (Ne.symm h.1), ih h.2]; rfl

theorem put_in {V : Type} (k : Str) (v : V) (d : Dict V) (hn : (d.map Prod.fst).Nodup) (h : k ∈ d.map Prod.fst) :
    put k v d = d.map (fun e => if e.1 = k then (k, v) else e) := by
  induction d with
  | nil => simp at h
  | cons e d ih =>
    obtain ⟨k', w⟩ := e
    simp only [List.map_cons, List.nodup_cons] at hn
    rw [put]
    by_cases hk : k' = k
    · subst hk
      rw [if_pos rfl, List.map_cons, if_pos rfl]
      congr 1
      symm
      conv_rhs => rw [← List.map_id d]
      apply List.map_congr_left
      intro e he
      rw [if_neg]; · rfl
      rintro rfl
      exact hn.1 (List.mem_map.2 ⟨e, he, rfl⟩)
    · rw [if_neg hk, List.map_cons, if_neg hk]
      simp only [List.map_cons, List.mem_cons, Ne.symm hk, false_or] at h
      rw [ih hn.2 h]

/-! ### Lines -/

def cv (p : Str × Str) : Str × PVal := (p.1, .conv p.2)

theorem cv_keys (ps : Pairs) : (ps.map cv).map Prod.fst = names ps := by simp [cv, names, Function.comp_def]

theorem spans_pairs (items : List Item) : ∀ pos, (spans pos items).map (fun m => (m.name, m.value)) = items.map (fun i => (i.name, i.value)) := by
  induction items with
  | nil => intro pos; rfl
  | cons i l ih => intro pos; simp [spans, ih]

theorem find_pairs (s : Str) (ps : Pairs) (h : IsLine s ps) : (findIter s).map (fun m => (m.name, m.value)) = ps := by
  obtain ⟨items, tail, e, hi, hb, rfl⟩ := h.parts
  have q : ∀ c ∈ tail, ¬ NumChar c ∧ c ≠ '{' ∧ c ≠ '"' := by
    intro c hc
    have := space_facts c (hb c hc)
    exact ⟨fun hn => by rw [(num_iff c).2 hn] at this; exact absurd this.2.1 (by simp), this.2.2.2.2.1, this.2.2.2.2.2⟩
  have st : ∀ c, tail.head? = some c → ¬ NameChar c ∧ c ≠ '%' := by
    intro c hc
    have hm : c ∈ tail := List.mem_of_mem_head? hc
    have := space_facts c (hb c hm)
    refine ⟨fun hn => by rw [(word_iff c).2 hn] at this; exact absurd this.1 (by simp), ?_⟩
    rintro rfl
    have h1 := hb _ hm
    exact absurd h1 (by decide)
  have k := scan_items tail st q items hi 0
  rw [← e, scan_nonword (by decide)] at k
  have sh : ∀ (s : Str) (n a b : Nat), (Model.ParamRegex.scan n a s).map (fun m => (m.name, m.value)) = (Model.ParamRegex.scan n b s).map (fun m => (m.name, m.value)) := by
    intro s
    induction s with
    | nil => intro n a b; cases n <;> rfl
    | cons c s ih =>
      intro n a b
      cases n with
      | succ n => exact ih n _ _
      | zero =>
        simp only [Model.ParamRegex.scan]
        split
        · split
          · exact ih 0 _ _
          · simp only [List.map_cons]; rw [ih _ (a + 1) (b + 1)]
        · exact ih 0 _ _
  rw [findIter, sh s 0 0 1]
  simp only [Nat.zero_add] at k
  rw [k, spans_pairs]

theorem pairsOf_line (s : Str) (ps : Pairs) (h : IsLine s ps) : pairsOf s = ps.map cv := by
  have key : ∀ (ms : List Model.ParamRegex.Match) (acc : Dict PVal), ((acc.map Prod.fst) ++ ms.map (fun m => m.name)).Nodup →
      ms.foldl (fun d m => put m.name (.conv m.value) d) acc = acc ++ ms.map (fun m => (m.name, PVal.conv m.value)) := by
    intro ms
    induction ms with
    | nil => intro acc _; simp
    | cons m ms ih =>
      intro acc hn
      have hf : m.name ∉ acc.map Prod.fst := by
        intro hm
        have := (List.nodup_append.1 hn).2.2 _ hm m.name (by simp)
        exact this rfl
      rw [List.foldl_cons, put_fresh _ _ _ hf, ih]
      · simp
      · simpa using hn
  have e := find_pairs s ps h
  have e1 : (findIter s).map (fun m => m.name) = names ps := by rw [← e]; simp [names, Function.comp_def]
  rw [pairsOf, key _ [] (by simp only [List.map_nil, List.nil_append, e1]; exact h.distinct), List.nil_append, ← e]
  simp [cv, Function.comp_def]

theorem joinPairs_eq (norm : Str → Str) (d : Dict PVal) : joinPairs norm d = lineText (d.map (fun e => (e.1, e.2.shown norm))) := by
  induction d with
  | nil => rfl
  | cons e d ih =>
    cases d with
    | nil => simp [joinPairs, lineText]
    | cons f l => simp only [joinPairs, ih]; simp [lineText]

theorem shown_again (norm : Str → Str) (ps : Pairs) : (ps.map cv).map (fun e => (e.1, e.2.shown norm)) = again norm ps := by
  simp [cv, again, PVal.shown, Function.comp_def]

theorem names_again (norm : Str → Str) (ps : Pairs) : names (again norm ps) = names ps := by simp [names, again, Function.comp_def]

theorem join_assign (norm : Str → Str) (k v : Str) (ps : Pairs) (hn : (names ps).Nodup) :
    joinPairs norm (put k (.set v) (ps.map cv)) = lineText (assignPair k v (again norm ps)) := by
  rw [joinPairs_eq, assignPair, names_again]
  congr 1
  by_cases hk : k ∈ names ps
  · rw [if_pos hk, put_in _ _ _ (by rw [cv_keys]; exact hn) (by rw [cv_keys]; exact hk), List.map_map, ← shown_again norm ps, List.map_map, List.map_map, List.map_map]
    apply List.map_congr_left
    intro e _
    simp only [Function.comp_apply]
    split <;> simp_all [PVal.shown]
  · rw [if_neg hk, put_fresh _ _ _ (by rw [cv_keys]; exact hk), List.map_append, shown_again]
    rfl

theorem join_remove (norm : Str → Str) (k : Str) (ps : Pairs) :
    joinPairs norm (pop k (ps.map cv)) = lineText (removePair k (again norm ps)) := by
  rw [joinPairs_eq]
  congr 1
  induction ps with
  | nil => rfl
  | cons p ps ih =>
    by_cases h : p.1 = k
    · simpa [pop, removePair, again, cv, h] using ih
    · simpa [pop, removePair, again, cv, h, PVal.shown] using ih

/-- the text of pairs is a line of these pairs -/
theorem lineText_line (ps : Pairs) (h1 : ∀ p ∈ ps, Name p.1 ∧ Value p.2) (hn : (names ps).Nodup) (h0 : ps ≠ []) : IsLine (lineText ps) ps := by
  refine ⟨⟨ps.map (fun p => ⟨[' '], p.1, ['='], p.2⟩), [], ?_, ?_, ?_, ?_⟩, hn, h0⟩
  · cases ps with
    | nil => exact absurd rfl h0
    | cons p ps =>
      clear h0 hn h1
      induction ps generalizing p with
      | nil => simp [lineText, Item.text]
      | cons q ps ih =>
        have := ih q
        simp only [lineText, List.map_cons, List.intercalate_cons_cons, List.flatMap_cons] at this ⊢
        rw [List.append_nil] at this ⊢
        rw [← this]
        simp [Item.text]
  · intro i hi
    obtain ⟨p, hp, rfl⟩ := List.mem_map.1 hi
    refine ⟨by simp, ?_, (h1 p hp).1, Or.inl ⟨[], [], rfl, ?_, ?_⟩, (h1 p hp).2⟩
    · intro c hc; simp at hc; subst hc; decide
    · intro c hc; cases hc
    · intro c hc; cases hc
  · intro c hc; cases hc
  · simp [Function.comp_def]

theorem line_names_ok (s : Str) (ps : Pairs) (h : IsLine s ps) : ∀ p ∈ ps, Name p.1 ∧ Value p.2 := by
  obtain ⟨items, tail, e, hi, hb, rfl⟩ := h.parts
  intro p hp
  obtain ⟨i, hm, rfl⟩ := List.mem_map.1 hp
  exact ⟨(hi i hm).2.2.1, (hi i hm).2.2.2.2⟩

/-! ### The component -/

/-- The attribute and the line it holds: none, or a line of pairs. -/
def Holds (a : Option Attr) (o : Option Pairs) : Prop :=
  (a = none ∧ o = none) ∨ ∃ (s : Str) (ps : Pairs), a = some (.text s) ∧ o = some ps ∧ IsLine s ps

/-- The component `c` has the lines `l`: every attribute occurs once, and the parameters are named differently from each other and from the
attributes that can be set (Value, Value2, SpiceModel, SpiceLine, SpiceLine2). -/
structure Has (c : Dict Attr) (l : Lines) : Prop where
  keys : (c.map Prod.fst).Nodup
  one : Holds (c.lookup spiceLine) l.one
  two : Holds (c.lookup spiceLine2) l.two
  distinct : (names l.pairs).Nodup
  plain : ∀ k ∈ names l.pairs, k ∉ known

theorem reduced_text (c : Dict Attr) (l : Lines) (h : Has c l) (k : Str) (hk : k ∈ reduced) (a : Attr) (hm : (k, a) ∈ c) : ∃ s, a = .text s := by
  have hl := (lookup_mem c h.keys k a).1 hm
  have : ∀ o, Holds (c.lookup k) o → ∃ s, a = .text s := by
    rintro o (⟨e, _⟩ | ⟨s, ps, e, _⟩)
    · rw [hl] at e; cases e
    · rw [hl] at e; exact ⟨s, by simpa using e⟩
  rcases List.mem_cons.1 hk with rfl | hk
  · exact this _ h.one
  · rw [List.mem_singleton] at hk; subst hk; exact this _ h.two

theorem reduced_known (k : Str) (h : k ∈ reduced) : k ∈ known := by
  rcases List.mem_cons.1 h with rfl | h
  · decide +kernel
  · rw [List.mem_singleton] at h; subst h; decide +kernel

theorem entries_spec (c : Dict Attr) (ht : ∀ k ∈ reduced, ∀ a, (k, a) ∈ c → ∃ s, a = .text s) :
    ∃ es, entries c = some es ∧ (∀ k, k ∈ es.map Prod.fst → k ∈ known ∧ k ∈ c.map Prod.fst) ∧
      ∀ k ∈ known, es.lookup k = (c.lookup k).bind (entryOf k) := by
  induction c with
  | nil => exact ⟨[], rfl, by simp, by simp⟩
  | cons e c ih =>
    obtain ⟨k, a⟩ := e
    obtain ⟨es, h1, h2, h3⟩ := ih (fun k hk a ha => ht k hk a (by simp [ha]))
    rw [entries]
    by_cases hk : k ∈ known
    · rw [if_pos hk]
      have he : ∃ e, entryOf k a = some e := by
        unfold entryOf
        by_cases hr : k ∈ reduced
        · obtain ⟨s, rfl⟩ := ht k hr a (by simp)
          rw [if_pos hr]; exact ⟨_, rfl⟩
        · rw [if_neg hr]; exact ⟨_, rfl⟩
      obtain ⟨e, he⟩ := he
      rw [he, h1]
      refine ⟨(k, e) :: es, rfl, ?_, ?_⟩
      · intro x hx
        rcases List.mem_cons.1 hx with rfl | hx
        · exact ⟨hk, by simp⟩
        · exact ⟨(h2 x hx).1, by simp only [List.map_cons, List.mem_cons]; exact Or.inr (h2 x hx).2⟩
      · intro x hx
        by_cases hxk : x = k
        · subst hxk; simp [List.lookup, he]
        · simp only [List.lookup, beq_eq_false_iff_ne.2 hxk]; exact h3 x hx
    · rw [if_neg hk]
      refine ⟨es, h1, fun x hx => ⟨(h2 x hx).1, by simp only [List.map_cons, List.mem_cons]; exact Or.inr (h2 x hx).2⟩, ?_⟩
      intro x hx
      have hxk : x ≠ k := by rintro rfl; exact hk hx
      simp only [List.lookup, beq_eq_false_iff_ne.2 hxk]; exact h3 x hx

/-- what the editor sees of a line -/
theorem entry_line (k : Str) (hk : k ∈ reduced) (a : Option Attr) (o : Option Pairs) (h : Holds a o) :
    a.bind (entryOf k) = o.map (fun ps => Entry.dict (ps.map cv)) := by
  rcases h with ⟨rfl, rfl⟩ | ⟨s, ps, rfl, rfl, hl⟩
  · rfl
  · have e := pairsOf_line s ps hl
    have := hl.some
    simp [entryOf, hk, e, this]

theorem pairs_mem (l : Lines) (p : Str × Str) : p ∈ l.pairs ↔ (∃ ps, l.one = some ps ∧ p ∈ ps) ∨ ∃ ps, l.two = some ps ∧ p ∈ ps := by
  unfold Lines.pairs
  cases h1 : l.one <;> cases h2 : l.two <;> simp

theorem names_mem (l : Lines) (k : Str) : k ∈ names l.pairs ↔ (∃ ps, l.one = some ps ∧ k ∈ names ps) ∨ ∃ ps, l.two = some ps ∧ k ∈ names ps := by
  unfold Lines.pairs
  cases h1 : l.one <;> cases h2 : l.two <;> simp [names]

/-- one turn of the loop over the two lines -/
theorem look_line (norm : Str → Str) (ps : Dict Entry) (k : Str) (v : Option Str) (pk : Str) (w : Work) (o : Option Pairs)
    (ho : ps.lookup pk = o.map (fun ps => Entry.dict (ps.map cv))) (hd : ∀ q, o = some q → (names q).Nodup) :
    lookIn norm ps k v pk w =
      if ∃ q, o = some q ∧ k ∈ names q then
        (⟨put pk (.text (lineText ((o.map (inLine norm k v)).getD []))) w.attrs,
          some (if v = none then .deleteComponentParameter else .updateComponentParameter), true⟩, none)
      else (w, none) := by
  unfold lookIn
  rw [ho]
  cases o with
  | none => simp
  | some q =>
    simp only [Option.map_some, cv_keys, Option.some.injEq, exists_eq_left', Option.getD_some]
    by_cases hk : k ∈ names q
    · rw [if_pos hk, if_pos hk]
      cases v with
      | none => simp only [join_remove, inLine, if_pos hk, if_true]
      | some v => simp only [join_assign norm k v q (hd q rfl), inLine, if_pos hk]; rfl
    · rw [if_neg hk, if_neg hk]

theorem names_inLine (norm : Str → Str) (k : Str) (v : Option Str) (ps : Pairs) : (names (inLine norm k v ps)).Sublist (names ps) := by
  unfold inLine
  by_cases hk : k ∈ names ps
  · rw [if_pos hk]
    cases v with
    | none =>
      have : (names (removePair k (again norm ps))).Sublist (names (again norm ps)) := List.Sublist.map _ List.filter_sublist
      rwa [names_again] at this
    | some v =>
      simp only [assignPair, names_again, if_pos hk]
      have : names (List.map (fun p => if p.1 = k then (k, v) else p) (again norm ps)) = names ps := by
        rw [← names_again norm ps]
        simp only [names, List.map_map]
        apply List.map_congr_left
        intro p _
        simp only [Function.comp_apply]
        split <;> simp_all
      rw [this]
  · rw [if_neg hk]

theorem mem_inLine (norm : Str → Str) (k : Str) (v : Option Str) (ps : Pairs) (p : Str × Str) (h : p ∈ inLine norm k v ps) :
    p ∈ ps ∨ (∃ q ∈ ps, p = (q.1, norm q.2)) ∨ ∃ w, v = some w ∧ p = (k, w) := by
  unfold inLine at h
  by_cases hk : k ∈ names ps
  · rw [if_pos hk] at h
    cases v with
    | none =>
      have := List.mem_of_mem_filter h
      obtain ⟨q, hq, rfl⟩ := List.mem_map.1 this
      exact Or.inr (Or.inl ⟨q, hq, rfl⟩)
    | some v =>
      simp only [assignPair, names_again, if_pos hk] at h
      obtain ⟨q, hq, rfl⟩ := List.mem_map.1 h
      obtain ⟨r, hr, rfl⟩ := List.mem_map.1 hq
      by_cases e : r.1 = k
      · simp only [e, if_true]; exact Or.inr (Or.inr ⟨v, rfl, rfl⟩)
      · simp only [e, if_false]; exact Or.inr (Or.inl ⟨r, hr, rfl⟩)
  · rw [if_neg hk] at h; exact Or.inl h

theorem inLine_some (norm : Str → Str) (k : Str) (v : Option Str) (ps : Pairs) (h0 : ps ≠ []) (hn : (names ps).Nodup)
    (h2 : v = none → k ∈ names ps → 2 ≤ ps.length) : inLine norm k v ps ≠ [] := by
  unfold inLine
  by_cases hk : k ∈ names ps
  · rw [if_pos hk]
    cases v with
    | none =>
      intro e
      have hl := h2 rfl hk
      have hall : ∀ p ∈ ps, p.1 = k := by
        intro p hp
        by_contra hne
        have hm : (p.1, norm p.2) ∈ removePair k (again norm ps) :=
          List.mem_filter.2 ⟨List.mem_map.2 ⟨p, hp, rfl⟩, by simpa using hne⟩
        simp only at e
        rw [e] at hm; cases hm
      match ps, hl, hn, hall with
      | p :: q :: r, _, hn, hall =>
        simp only [names, List.map_cons, List.nodup_cons, List.mem_cons, not_or] at hn
        exact hn.1.1 ((hall p (by simp)).trans (hall q (by simp)).symm)
    | some v =>
      simp only [assignPair, names_again, if_pos hk]
      simpa [again] using h0
  · rw [if_neg hk]; exact h0

/-- the lines after a legal change: names differ, and the values are good -/
theorem set_distinct (norm : Str → Str) (k : Str) (v : Option Str) (l : Lines) (h : (names l.pairs).Nodup) :
    (names (l.set norm k v).pairs).Nodup := by
  unfold Lines.set
  by_cases hk : k ∈ names l.pairs
  · rw [if_pos hk]
    refine List.Nodup.sublist ?_ h
    unfold Lines.pairs
    simp only [names, List.map_append]
    apply List.Sublist.append
    · cases l.one with
      | none => simp
      | some q => exact names_inLine norm k v q
    · cases l.two with
      | none => simp
      | some q => exact names_inLine norm k v q
  · rw [if_neg hk]
    cases v with
    | none => exact h
    | some v =>
      have e : names (Lines.pairs ⟨some (again norm (l.one.getD []) ++ [(k, v)]), l.two⟩) = names (l.one.getD []) ++ k :: names (l.two.getD []) := by
        have := names_again norm (l.one.getD [])
        simp only [names] at this
        simp [Lines.pairs, names, this]
      rw [e]
      have e2 : names l.pairs = names (l.one.getD []) ++ names (l.two.getD []) := by simp [Lines.pairs, names]
      rw [e2] at h hk
      exact List.nodup_middle.2 (List.nodup_cons.2 ⟨hk, h⟩)

theorem set_mem (norm : Str → Str) (k : Str) (v : Option Str) (l : Lines) (p : Str × Str) (h : p ∈ (l.set norm k v).pairs) :
    p ∈ l.pairs ∨ (∃ q ∈ l.pairs, p = (q.1, norm q.2)) ∨ ∃ w, v = some w ∧ p = (k, w) := by
  unfold Lines.set at h
  have lift : ∀ (q : Pairs), (l.one = some q ∨ l.two = some q) → p ∈ inLine norm k v q →
      p ∈ l.pairs ∨ (∃ q ∈ l.pairs, p = (q.1, norm q.2)) ∨ ∃ w, v = some w ∧ p = (k, w) := by
    intro q hq hp
    have sub : ∀ x ∈ q, x ∈ l.pairs := by
      intro x hx
      rw [pairs_mem]
      rcases hq with hq | hq
      · exact Or.inl ⟨q, hq, hx⟩
      · exact Or.inr ⟨q, hq, hx⟩
    rcases mem_inLine norm k v q p hp with m | ⟨x, hx, e⟩ | m
    · exact Or.inl (sub p m)
    · exact Or.inr (Or.inl ⟨x, sub x hx, e⟩)
    · exact Or.inr (Or.inr m)
  by_cases hk : k ∈ names l.pairs
  · rw [if_pos hk, pairs_mem] at h
    rcases h with ⟨ps, e, hp⟩ | ⟨ps, e, hp⟩
    · obtain ⟨q, hq, rfl⟩ := Option.map_eq_some_iff.1 e
      exact lift q (Or.inl hq) hp
    · obtain ⟨q, hq, rfl⟩ := Option.map_eq_some_iff.1 e
      exact lift q (Or.inr hq) hp
  · rw [if_neg hk] at h
    cases v with
    | none => exact Or.inl h
    | some v =>
      rw [pairs_mem] at h
      rcases h with ⟨ps, e, hp⟩ | ⟨ps, e, hp⟩
      · simp only [Option.some.injEq] at e
        subst e
        rcases List.mem_append.1 hp with m | m
        · obtain ⟨q, hq, rfl⟩ := List.mem_map.1 m
          refine Or.inr (Or.inl ⟨q, ?_, rfl⟩)
          simp [Lines.pairs, hq]
        · rw [List.mem_singleton] at m
          exact Or.inr (Or.inr ⟨v, rfl, m⟩)
      · exact Or.inl ((pairs_mem l p).2 (Or.inr ⟨ps, e, hp⟩))

theorem lookup_append {V : Type} (x : Str) (a b : List (Str × V)) : (a ++ b).lookup x = (a.lookup x).or (b.lookup x) := by
  induction a with
  | nil => simp
  | cons e a ih =>
    obtain ⟨k, v⟩ := e
    by_cases h : x = k
    · subst h; simp [List.lookup]
    · simp only [List.cons_append, List.lookup, beq_eq_false_iff_ne.2 h]; exact ih

theorem lookup_again (norm : Str → Str) (x : Str) (ps : Pairs) : (again norm ps).lookup x = (ps.lookup x).map norm := by
  induction ps with
  | nil => rfl
  | cons p ps ih =>
    obtain ⟨k, v⟩ := p
    by_cases h : x = k
    · subst h; simp [again, List.lookup]
    · simp only [again, List.map_cons, List.lookup, beq_eq_false_iff_ne.2 h]; exact ih

theorem lookup_inLine (norm : Str → Str) (k : Str) (v : Option Str) (ps : Pairs) (x : Str) (hk : k ∈ names ps) :
    (inLine norm k v ps).lookup x = if x = k then v else (ps.lookup x).map norm := by
  unfold inLine
  rw [if_pos hk]
  cases v with
  | none =>
    simp only
    by_cases h : x = k
    · rw [if_pos h, lookup_none]
      intro hm
      obtain ⟨p, hp, rfl⟩ := List.mem_map.1 hm
      have := (List.mem_filter.1 hp).2
      simp [h] at this
    · rw [if_neg h, ← lookup_again]
      generalize again norm ps = qs
      induction qs with
      | nil => rfl
      | cons q qs ih =>
        obtain ⟨a, b⟩ := q
        by_cases hq : a = k
        · subst hq
          simp only [removePair] at ih
          simpa [removePair, List.lookup, beq_eq_false_iff_ne.2 h] using ih
        · simp only [removePair] at ih
          simp only [removePair, List.filter_cons, decide_eq_true_eq, hq, ne_eq, not_false_iff, if_true, List.lookup, ih]
  | some v =>
    simp only [assignPair, names_again, if_pos hk]
    rw [← lookup_again]
    have hk' : k ∈ names (again norm ps) := by rw [names_again]; exact hk
    generalize again norm ps = qs at hk'
    by_cases h : x = k
    · subst h
      rw [if_pos rfl]
      induction qs with
      | nil => simp [names] at hk'
      | cons q qs ih =>
        obtain ⟨a, b⟩ := q
        by_cases hq : a = x
        · subst hq; simp [List.lookup]
        · simp only [List.map_cons, hq, if_false, List.lookup, beq_eq_false_iff_ne.2 (Ne.symm hq)]
          apply ih
          simpa [names, Ne.symm hq] using hk'
    · rw [if_neg h]
      clear hk'
      induction qs with
      | nil => rfl
      | cons q qs ih =>
        obtain ⟨a, b⟩ := q
        by_cases hq : a = k
        · subst hq
          simp only [List.map_cons, if_true, List.lookup, beq_eq_false_iff_ne.2 h]; exact ih
        · simp only [List.map_cons, hq, if_false, List.lookup]
          split
          · rfl
          · exact ih

/-- the value of any parameter after a change -/
theorem set_lookup {β : Type} (T : Texts β) (k : Str) (v : Option Str) (l : Lines) (hd : (names l.pairs).Nodup) (hg : ∀ p ∈ l.pairs, T.good p.2) (x : Str) :
    ((l.set T.norm k v).pairs.lookup x).map T.read = if x = k then v.map T.read else (l.pairs.lookup x).map T.read := by
  have hsame : ∀ ps : Pairs, (∀ p ∈ ps, T.good p.2) → ((ps.lookup x).map T.norm).map T.read = (ps.lookup x).map T.read := by
    intro ps hp
    cases e : ps.lookup x with
    | none => rfl
    | some w =>
      have : (x, w) ∈ ps := by
        clear hp
        induction ps with
        | nil => simp at e
        | cons q qs ih =>
          obtain ⟨a, b⟩ := q
          by_cases h : x = a
          · subst h; simp [List.lookup] at e; subst e; simp
          · simp only [List.lookup, beq_eq_false_iff_ne.2 h] at e
            exact List.mem_cons_of_mem _ (ih e)
      simp only [Option.map_some]
      rw [T.same w (hp _ this)]
  have one_good : ∀ ps, l.one = some ps → ∀ p ∈ ps, T.good p.2 := fun ps e p hp => hg p ((pairs_mem l p).2 (Or.inl ⟨ps, e, hp⟩))
  have two_good : ∀ ps, l.two = some ps → ∀ p ∈ ps, T.good p.2 := fun ps e p hp => hg p ((pairs_mem l p).2 (Or.inr ⟨ps, e, hp⟩))
  -- one line, whether it holds the name or not
  have line : ∀ (o : Option Pairs), (∀ ps, o = some ps → ∀ p ∈ ps, T.good p.2) →
      (((o.map (inLine T.norm k v)).getD []).lookup x).map T.read =
        if x = k ∧ k ∈ names (o.getD []) then v.map T.read else ((o.getD []).lookup x).map T.read := by
    intro o ho
    cases o with
    | none => simp [names]
    | some q =>
      simp only [Option.map_some, Option.getD_some]
      by_cases hk : k ∈ names q
      · rw [lookup_inLine T.norm k v q x hk]
        by_cases h : x = k
        · rw [if_pos h, if_pos ⟨h, hk⟩]
        · rw [if_neg h, if_neg (fun hh => h hh.1), hsame q (ho q rfl)]
      · rw [if_neg (fun hh => hk hh.2)]; unfold inLine; rw [if_neg hk]
  unfold Lines.set
  by_cases hk : k ∈ names l.pairs
  · rw [if_pos hk]
    unfold Lines.pairs
    simp only [lookup_append, Option.map_or]
    rw [line l.one one_good, line l.two two_good]
    by_cases h : x = k
    · subst h
      simp only [true_and, if_true]
      have e2 : names l.pairs = names (l.one.getD []) ++ names (l.two.getD []) := by simp [Lines.pairs, names]
      rw [e2] at hk hd
      rcases List.mem_append.1 hk with m | m
      · have m2 : x ∉ names (l.two.getD []) := fun m2 => (List.nodup_append.1 hd).2.2 _ m _ m2 rfl
        rw [if_pos m, if_neg m2, (lookup_none _ _).2 m2]
        simp
      · have m2 : x ∉ names (l.one.getD []) := fun m2 => (List.nodup_append.1 hd).2.2 _ m2 _ m rfl
        rw [if_pos m, if_neg m2, (lookup_none _ _).2 m2]
        simp
    · simp only [h, false_and, if_false]
  · rw [if_neg hk]
    cases v with
    | none =>
      simp only
      by_cases h : x = k
      · subst h; rw [if_pos rfl, (lookup_none _ _).2 hk]
      · rw [if_neg h]
    | some v =>
      unfold Lines.pairs
      simp only [Option.getD_some, lookup_append, Option.map_or, lookup_again]
      have h1 : ∀ p ∈ l.one.getD [], T.good p.2 := by
        cases e : l.one with
        | none => simp
        | some q => exact one_good q e
      rw [hsame _ h1]
      by_cases h : x = k
      · subst h
        rw [if_pos rfl]
        have e2 : names l.pairs = names (l.one.getD []) ++ names (l.two.getD []) := by simp [Lines.pairs, names]
        rw [e2, List.mem_append, not_or] at hk
        rw [(lookup_none _ _).2 hk.1]
        simp [List.lookup]
      · rw [if_neg h]
        simp [List.lookup, beq_eq_false_iff_ne.2 h]

/-- What a change of a parameter does to a component: the line that holds it (SpiceLine for a new one) is written again as text, everything else
stays as it is; and the kind that is recorded. -/
structure Changed (norm : Str → Str) (c c' : Dict Attr) (l : Lines) (k : Str) (v : Option Str) (u : UpdateType) : Prop where
  one : c'.lookup spiceLine = if (∃ ps, l.one = some ps ∧ k ∈ names ps) ∨ k ∉ names l.pairs
    then some (.text (lineText ((l.set norm k v).one.getD []))) else c.lookup spiceLine
  two : c'.lookup spiceLine2 = if ∃ ps, l.two = some ps ∧ k ∈ names ps
    then some (.text (lineText ((l.set norm k v).two.getD []))) else c.lookup spiceLine2
  rest : ∀ a, a ∉ reduced → c'.lookup a = c.lookup a
  kind : u = if v = none then .deleteComponentParameter else if k ∈ names l.pairs then .updateComponentParameter else .addComponentParameter

theorem key_set {β : Type} (T : Texts β) (c : Dict Attr) (l : Lines) (h : Has c l) (hg : ∀ p ∈ l.pairs, T.good p.2) (k : Str) (hk : k ∉ known)
    (v : Option Str) (hl : Legal T.good l k v) (kind : Option UpdateType) :
    ∃ c' u b, setKey T.norm c kind k v = (⟨c', some u, b⟩, none) ∧ Changed T.norm c c' l k v u ∧ Has c' (l.set T.norm k v) := by
  obtain ⟨es, h1, h2, h3⟩ := entries_spec c (fun k hk a ha => reduced_text c l h k hk a ha)
  have hes : k ∉ es.map Prod.fst := fun hm => hk (h2 k hm).1
  have r1 : spiceLine ∈ reduced := by decide +kernel
  have r2 : spiceLine2 ∈ reduced := by decide +kernel
  have o1 := (h3 _ (reduced_known _ r1)).trans (entry_line _ r1 _ _ h.one)
  have o2 := (h3 _ (reduced_known _ r2)).trans (entry_line _ r2 _ _ h.two)
  have dist : ∀ q, (l.one = some q ∨ l.two = some q) → (names q).Nodup := by
    rintro q (e | e)
    · rcases h.one with ⟨_, n⟩ | ⟨s, ps, _, n, i⟩
      · rw [e] at n; cases n
      · rw [e] at n; cases n; exact i.distinct
    · rcases h.two with ⟨_, n⟩ | ⟨s, ps, _, n, i⟩
      · rw [e] at n; cases n
      · rw [e] at n; cases n; exact i.distinct
  have n12 : spiceLine ≠ spiceLine2 := by decide +kernel
  -- all values that can occur afterwards
  have good' : ∀ p ∈ (l.set T.norm k v).pairs, T.good p.2 := by
    intro p hp
    rcases set_mem T.norm k v l p hp with m | ⟨q, hq, rfl⟩ | ⟨w, rfl, rfl⟩
    · exact hg p m
    · exact T.again _ (hg q hq)
    · exact hl.2
  have name' : ∀ p ∈ (l.set T.norm k v).pairs, Name p.1 := by
    have nm : ∀ p ∈ l.pairs, Name p.1 := by
      intro p hp
      rcases (pairs_mem l p).1 hp with ⟨ps, e, m⟩ | ⟨ps, e, m⟩
      · rcases h.one with ⟨_, n⟩ | ⟨s, qs, _, n, i⟩
        · rw [e] at n; cases n
        · rw [e] at n; cases n; exact (line_names_ok s ps i p m).1
      · rcases h.two with ⟨_, n⟩ | ⟨s, qs, _, n, i⟩
        · rw [e] at n; cases n
        · rw [e] at n; cases n; exact (line_names_ok s ps i p m).1
    intro p hp
    rcases set_mem T.norm k v l p hp with m | ⟨q, hq, rfl⟩ | ⟨w, rfl, rfl⟩
    · exact nm p m
    · exact nm q hq
    · exact hl.1
  have distinct' := set_distinct T.norm k v l h.distinct
  have plain' : ∀ x ∈ names (l.set T.norm k v).pairs, x ∉ known := by
    intro x hx
    obtain ⟨p, hp, rfl⟩ := List.mem_map.1 hx
    rcases set_mem T.norm k v l p hp with m | ⟨q, hq, rfl⟩ | ⟨w, rfl, rfl⟩
    · exact h.plain _ (List.mem_map.2 ⟨p, m, rfl⟩)
    · exact h.plain _ (List.mem_map.2 ⟨q, hq, rfl⟩)
    · exact hk
  have nonempty : ∀ q, (l.one = some q ∨ l.two = some q) → q ≠ [] := by
    rintro q (e | e)
    · rcases h.one with ⟨_, n⟩ | ⟨s, ps, _, n, i⟩
      · rw [e] at n; cases n
      · rw [e] at n; cases n; exact i.some
    · rcases h.two with ⟨_, n⟩ | ⟨s, ps, _, n, i⟩
      · rw [e] at n; cases n
      · rw [e] at n; cases n; exact i.some
  -- a rewritten line is a line
  have fresh : ∀ ps : Pairs, ((l.set T.norm k v).one = some ps ∨ (l.set T.norm k v).two = some ps) → ps ≠ [] → IsLine (lineText ps) ps := by
    intro ps hps h0
    have sub : ∀ p ∈ ps, p ∈ (l.set T.norm k v).pairs := by
      intro p hp
      rw [pairs_mem]
      rcases hps with e | e
      · exact Or.inl ⟨ps, e, hp⟩
      · exact Or.inr ⟨ps, e, hp⟩
    refine lineText_line ps (fun p hp => ⟨name' p (sub p hp), T.value _ (good' p (sub p hp))⟩) ?_ h0
    refine List.Nodup.sublist ?_ distinct'
    unfold Lines.pairs
    simp only [names, List.map_append]
    rcases hps with e | e
    · rw [e]; exact List.sublist_append_left _ _
    · rw [e]; exact List.sublist_append_right _ _
  have assemble : ∀ c' u, (c'.map Prod.fst).Nodup → Changed T.norm c c' l k v u → Has c' (l.set T.norm k v) := by
    intro c' u hkeys hc
    refine ⟨hkeys, ?_, ?_, distinct', plain'⟩
    · rw [hc.one]
      by_cases ht : (∃ ps, l.one = some ps ∧ k ∈ names ps) ∨ k ∉ names l.pairs
      · rw [if_pos ht]
        have : ∃ ps, (l.set T.norm k v).one = some ps ∧ ps ≠ [] := by
          unfold Lines.set
          by_cases hin : k ∈ names l.pairs
          · rw [if_pos hin]
            rcases ht with ⟨ps, e, hp⟩ | hn
            · refine ⟨inLine T.norm k v ps, by simp [e], inLine_some _ _ _ _ (nonempty ps (Or.inl e)) (dist ps (Or.inl e)) ?_⟩
              rintro rfl hk2
              exact hl.2 ps (Or.inl e) hk2
            · exact absurd hin hn
          · rw [if_neg hin]
            cases v with
            | none => exact absurd hl.1 hin
            | some v => exact ⟨_, rfl, by simp⟩
        obtain ⟨ps, e, h0⟩ := this
        exact Or.inr ⟨_, ps, by rw [e]; rfl, e, fresh ps (Or.inl e) h0⟩
      · rw [if_neg ht]
        simp only [not_or, not_not] at ht
        have : (l.set T.norm k v).one = l.one := by
          unfold Lines.set
          rw [if_pos ht.2]
          cases e : l.one with
          | none => rfl
          | some q =>
            have : k ∉ names q := fun hh => ht.1 ⟨q, e, hh⟩
            simp [inLine, this]
        rw [this]; exact h.one
    · rw [hc.two]
      by_cases ht : ∃ ps, l.two = some ps ∧ k ∈ names ps
      · rw [if_pos ht]
        obtain ⟨ps, e, hp⟩ := ht
        have hin : k ∈ names l.pairs := (names_mem l k).2 (Or.inr ⟨ps, e, hp⟩)
        have e' : (l.set T.norm k v).two = some (inLine T.norm k v ps) := by
          unfold Lines.set; rw [if_pos hin]; simp [e]
        refine Or.inr ⟨_, inLine T.norm k v ps, by rw [e']; rfl, e', fresh _ (Or.inr e') ?_⟩
        refine inLine_some _ _ _ _ (nonempty ps (Or.inr e)) (dist ps (Or.inr e)) ?_
        rintro rfl hk2
        exact hl.2 ps (Or.inr e) hk2
      · rw [if_neg ht]
        have : (l.set T.norm k v).two = l.two := by
          unfold Lines.set
          by_cases hin : k ∈ names l.pairs
          · rw [if_pos hin]
            cases e : l.two with
            | none => rfl
            | some q =>
              have : k ∉ names q := fun hh => ht ⟨q, e, hh⟩
              simp [inLine, this]
          · rw [if_neg hin]; cases v <;> rfl
        rw [this]; exact h.two
  unfold setKey
  rw [h1]
  simp only
  rw [if_neg hes, look_line T.norm es k v spiceLine _ l.one o1 (fun q e => dist q (Or.inl e))]
  by_cases m1 : ∃ q, l.one = some q ∧ k ∈ names q
  · -- in SpiceLine
    have hin : k ∈ names l.pairs := (names_mem l k).2 (Or.inl m1)
    have m2 : ¬ ∃ q, l.two = some q ∧ k ∈ names q := by
      rintro ⟨q2, e2, k2⟩
      obtain ⟨q1, e1, k1⟩ := m1
      have hd := h.distinct
      unfold Lines.pairs at hd
      rw [e1, e2] at hd
      simp only [Option.getD_some, names, List.map_append] at hd
      exact (List.nodup_append.1 hd).2.2 _ k1 _ k2 rfl
    rw [if_pos m1]
    simp only
    rw [look_line T.norm es k v spiceLine2 _ l.two o2 (fun q e => dist q (Or.inr e)), if_neg m2]
    simp only [if_true]
    have hc : Changed T.norm c (put spiceLine (.text (lineText ((l.one.map (inLine T.norm k v)).getD []))) c) l k v
        (if v = none then .deleteComponentParameter else .updateComponentParameter) := by
      refine ⟨?_, ?_, ?_, ?_⟩
      · rw [lookup_put, if_pos rfl, if_pos (Or.inl m1)]; unfold Lines.set; rw [if_pos hin]
      · rw [lookup_put, if_neg n12.symm, if_neg m2]
      · intro a ha
        rw [lookup_put, if_neg (fun e : a = spiceLine => ha (e ▸ r1))]
      · simp [hin]
    exact ⟨_, _, _, rfl, hc, assemble _ _ (nodup_put _ _ _ h.keys) hc⟩
  · rw [if_neg m1]
    simp only
    rw [look_line T.norm es k v spiceLine2 _ l.two o2 (fun q e => dist q (Or.inr e))]
    by_cases m2 : ∃ q, l.two = some q ∧ k ∈ names q
    · have hin : k ∈ names l.pairs := (names_mem l k).2 (Or.inr m2)
      rw [if_pos m2]
      simp only [if_true]
      have hc : Changed T.norm c (put spiceLine2 (.text (lineText ((l.two.map (inLine T.norm k v)).getD []))) c) l k v
          (if v = none then .deleteComponentParameter else .updateComponentParameter) := by
        refine ⟨?_, ?_, ?_, ?_⟩
        · rw [lookup_put, if_neg n12, if_neg (by rintro (m | m); exacts [m1 m, m hin])]
        · rw [lookup_put, if_pos rfl, if_pos m2]; unfold Lines.set; rw [if_pos hin]
        · intro a ha
          rw [lookup_put, if_neg (fun e : a = spiceLine2 => ha (e ▸ r2))]
        · simp [hin]
      exact ⟨_, _, _, rfl, hc, assemble _ _ (nodup_put _ _ _ h.keys) hc⟩
    · have hout : k ∉ names l.pairs := by
        rw [names_mem]; rintro (m | m); exacts [m1 m, m2 m]
      rw [if_neg m2]
      simp only [Bool.false_eq_true, if_false]
      cases v with
      | none => exact absurd hl.1 hout
      | some v =>
        have set_one : (l.set T.norm k (some v)).one = some (again T.norm (l.one.getD []) ++ [(k, v)]) := by
          unfold Lines.set; rw [if_neg hout]
        have hc : Changed T.norm c (put spiceLine (.text (lineText (again T.norm (l.one.getD []) ++ [(k, v)]))) c) l k (some v) .addComponentParameter := by
          refine ⟨?_, ?_, ?_, ?_⟩
          · rw [lookup_put, if_pos rfl, if_pos (Or.inr hout), set_one]; rfl
          · rw [lookup_put, if_neg n12.symm, if_neg m2]
          · intro a ha
            rw [lookup_put, if_neg (fun e : a = spiceLine => ha (e ▸ r1))]
          · simp [hout]
        refine ⟨_, _, false, ?_, hc, assemble _ _ (nodup_put _ _ _ h.keys) hc⟩
        simp only [addKey, if_neg hk]
        rw [o1]
        cases e : l.one with
        | none => simp [again, lineText]
        | some q =>
          have hq : k ∉ names q := fun hh => m1 ⟨q, e, hh⟩
          simp only [Option.map_some, Option.getD_some]
          rw [join_assign T.norm k v q (dist q (Or.inl e)), assignPair, names_again, if_neg hq]

/-! ### Reading -/

def contrib (e : Str × Attr) : List (Str × Shown) :=
  if e.1 ∈ known then
    if e.1 ∈ reduced then
      match e.2 with
      | .text s => (e.1, .attr e.2) :: (pairsOf s).map (fun p => (p.1, .par p.2))
      | _ => []
    else [(e.1, .attr e.2)]
  else []

theorem getAux_eq (c : Dict Attr) (ht : ∀ k ∈ reduced, ∀ a, (k, a) ∈ c → ∃ s, a = .text s) : ∀ acc,
    getAux c acc = some ((c.flatMap contrib).foldl (fun d e => put e.1 e.2 d) acc) := by
  induction c with
  | nil => intro acc; rfl
  | cons e c ih =>
    intro acc
    obtain ⟨k, a⟩ := e
    have ih' := ih (fun k hk a ha => ht k hk a (by simp [ha]))
    rw [List.flatMap_cons, List.foldl_append]
    simp only [getAux]
    by_cases hk : k ∈ known
    · rw [if_pos hk]
      by_cases hr : k ∈ reduced
      · obtain ⟨s, rfl⟩ := ht k hr a (by simp)
        rw [if_pos hr]
        simp only [contrib, if_pos hk, if_pos hr, List.foldl_cons, List.foldl_map]
        exact ih' _
      · rw [if_neg hr]
        simp only [contrib, if_pos hk, if_neg hr, List.foldl_cons, List.foldl_nil]
        exact ih' _
    · rw [if_neg hk]
      simp only [contrib, if_neg hk, List.foldl_nil]
      exact ih' _

/-- C65: what is read. The parameters are those of the two lines, with their values; the attributes Value, Value2, SpiceModel, SpiceLine and
SpiceLine2 are read as they are. -/
theorem C65_get (ed : Ed) (ref : Str) (c : Dict Attr) (hc : ed.get ref = some c) (l : Lines) (h : Has c l) :
    ∃ d, getComponentParameters ed ref = .ok d ∧ (∀ k, k ∉ known → d.lookup k = (l.pairs.lookup k).map (fun v => .par (.conv v))) ∧
      ∀ k ∈ known, d.lookup k = (c.lookup k).map .attr := by
  have ht := fun k hk a ha => reduced_text c l h k hk a ha
  have hget : getParameters c = some ((c.flatMap contrib).foldl (fun d e => put e.1 e.2 d) []) := getAux_eq c ht []
  refine ⟨(c.flatMap contrib).foldl (fun d e => put e.1 e.2 d) [], by rw [getComponentParameters, hc]; simp only [hget], ?_, ?_⟩
  all_goals have r1 : spiceLine ∈ reduced := by decide +kernel
  all_goals have r2 : spiceLine2 ∈ reduced := by decide +kernel
  · intro k hk
    -- a parameter comes from one of the two lines only
    have from_line : ∀ z, (k, z) ∈ c.flatMap contrib → ∃ v, (k, v) ∈ l.pairs ∧ z = .par (.conv v) := by
      intro z hz
      obtain ⟨⟨x, a⟩, hm, he⟩ := List.mem_flatMap.1 hz
      unfold contrib at he
      by_cases hx : x ∈ known
      · rw [if_pos hx] at he
        by_cases hr : x ∈ reduced
        · rw [if_pos hr] at he
          obtain ⟨s, rfl⟩ := ht x hr a hm
          simp only [List.mem_cons, Prod.mk.injEq, List.mem_map] at he
          rcases he with ⟨rfl, _⟩ | ⟨p, hp, rfl, rfl⟩
          · exact absurd hx hk
          · have hl := (lookup_mem c h.keys x (.text s)).1 hm
            have step : ∀ o, Holds (c.lookup x) o → (∀ ps, o = some ps → ∀ q ∈ ps, q ∈ l.pairs) → ∃ v, (p.1, v) ∈ l.pairs ∧ Shown.par p.2 = .par (.conv v) := by
              rintro o (⟨e, _⟩ | ⟨s', ps, e, rfl, il⟩) hsub
              · rw [hl] at e; cases e
              · rw [hl] at e
                simp only [Option.some.injEq, Attr.text.injEq] at e
                subst e
                rw [pairsOf_line s ps il] at hp
                obtain ⟨q, hq, rfl⟩ := List.mem_map.1 hp
                exact ⟨q.2, hsub ps rfl q hq, rfl⟩
            rcases List.mem_cons.1 hr with rfl | hr
            · exact step _ h.one (fun ps e q hq => (pairs_mem l q).2 (Or.inl ⟨ps, e, hq⟩))
            · rw [List.mem_singleton] at hr; subst hr
              exact step _ h.two (fun ps e q hq => (pairs_mem l q).2 (Or.inr ⟨ps, e, hq⟩))
        · rw [if_neg hr] at he
          simp only [List.mem_singleton, Prod.mk.injEq] at he
          exact absurd (he.1 ▸ hx) hk
      · rw [if_neg hx] at he; cases he
    have to_line : ∀ v, (k, v) ∈ l.pairs → (k, Shown.par (.conv v)) ∈ c.flatMap contrib := by
      intro v hv
      have step : ∀ x ∈ reduced, ∀ o, Holds (c.lookup x) o → (∃ ps, o = some ps ∧ (k, v) ∈ ps) → (k, Shown.par (.conv v)) ∈ c.flatMap contrib := by
        rintro x hx o (⟨e, rfl⟩ | ⟨s, ps, e, rfl, il⟩) ⟨qs, eq, hq⟩
        · cases eq
        · cases eq
          have hm := (lookup_mem c h.keys x (.text s)).2 e
          refine List.mem_flatMap.2 ⟨(x, .text s), hm, ?_⟩
          simp only [contrib, if_pos (reduced_known x hx), if_pos hx, List.mem_cons, List.mem_map]
          refine Or.inr ⟨(k, .conv v), ?_, rfl⟩
          rw [pairsOf_line s _ il]
          exact List.mem_map.2 ⟨(k, v), hq, rfl⟩
      rcases (pairs_mem l (k, v)).1 hv with ⟨ps, e, m⟩ | ⟨ps, e, m⟩
      · exact step spiceLine r1 _ h.one ⟨ps, e, m⟩
      · exact step spiceLine2 r2 _ h.two ⟨ps, e, m⟩
    cases e : l.pairs.lookup k with
    | none =>
      have hn : k ∉ (c.flatMap contrib).map Prod.fst := by
        intro hm
        obtain ⟨⟨x, z⟩, hz, rfl⟩ := List.mem_map.1 hm
        obtain ⟨v, hv, _⟩ := from_line z hz
        rw [lookup_none] at e
        exact e (List.mem_map.2 ⟨_, hv, rfl⟩)
      have := lookup_fill k (Shown.attr .none) (c.flatMap contrib) (fun z hz => absurd (List.mem_map.2 ⟨_, hz, rfl⟩) hn) []
      rw [this, if_neg hn]; rfl
    | some v =>
      have hm := (lookup_mem l.pairs h.distinct k v).2 e
      have := lookup_fill k (Shown.par (.conv v)) (c.flatMap contrib) (by
        intro z hz
        obtain ⟨w, hw, rfl⟩ := from_line z hz
        rw [(lookup_mem l.pairs h.distinct k w).1 hw] at e
        cases e; rfl) []
      rw [this, if_pos (List.mem_map.2 ⟨_, to_line v hm, rfl⟩)]; rfl
  · intro k hk
    have from_attr : ∀ z, (k, z) ∈ c.flatMap contrib → ∃ a, (k, a) ∈ c ∧ z = .attr a := by
      intro z hz
      obtain ⟨⟨x, a⟩, hm, he⟩ := List.mem_flatMap.1 hz
      unfold contrib at he
      by_cases hx : x ∈ known
      · rw [if_pos hx] at he
        by_cases hr : x ∈ reduced
        · rw [if_pos hr] at he
          obtain ⟨s, rfl⟩ := ht x hr a hm
          simp only [List.mem_cons, Prod.mk.injEq, List.mem_map] at he
          rcases he with ⟨rfl, rfl⟩ | ⟨p, hp, rfl, rfl⟩
          · exact ⟨_, hm, rfl⟩
          · exfalso
            have hl := (lookup_mem c h.keys x (.text s)).1 hm
            have step : ∀ o, Holds (c.lookup x) o → (∀ ps, o = some ps → ∀ q ∈ ps, q ∈ l.pairs) → False := by
              rintro o (⟨e, _⟩ | ⟨s', ps, e, rfl, il⟩) hsub
              · rw [hl] at e; cases e
              · rw [hl] at e
                simp only [Option.some.injEq, Attr.text.injEq] at e
                subst e
                rw [pairsOf_line s ps il] at hp
                obtain ⟨q, hq, rfl⟩ := List.mem_map.1 hp
                exact h.plain _ (List.mem_map.2 ⟨q, hsub ps rfl q hq, rfl⟩) hk
            rcases List.mem_cons.1 hr with rfl | hr
            · exact step _ h.one (fun ps e q hq => (pairs_mem l q).2 (Or.inl ⟨ps, e, hq⟩))
            · rw [List.mem_singleton] at hr; subst hr
              exact step _ h.two (fun ps e q hq => (pairs_mem l q).2 (Or.inr ⟨ps, e, hq⟩))
        · rw [if_neg hr] at he
          simp only [List.mem_singleton, Prod.mk.injEq] at he
          obtain ⟨rfl, rfl⟩ := he
          exact ⟨a, hm, rfl⟩
      · rw [if_neg hx] at he; cases he
    cases e : c.lookup k with
    | none =>
      have hn : k ∉ (c.flatMap contrib).map Prod.fst := by
        intro hm
        obtain ⟨⟨x, z⟩, hz, rfl⟩ := List.mem_map.1 hm
        obtain ⟨v, hv, _⟩ := from_attr z hz
        rw [lookup_none] at e
        exact e (List.mem_map.2 ⟨_, hv, rfl⟩)
      have := lookup_fill k (Shown.attr .none) (c.flatMap contrib) (fun z hz => absurd (List.mem_map.2 ⟨_, hz, rfl⟩) hn) []
      rw [this, if_neg hn]; rfl
    | some a =>
      have hm := (lookup_mem c h.keys k a).2 e
      have := lookup_fill k (Shown.attr a) (c.flatMap contrib) (by
        intro z hz
        obtain ⟨w, hw, rfl⟩ := from_attr z hz
        rw [(lookup_mem c h.keys k w).1 hw] at e
        cases e; rfl) []
      rw [this, if_pos]; · rfl
      refine List.mem_map.2 ⟨(k, .attr a), List.mem_flatMap.2 ⟨(k, a), hm, ?_⟩, rfl⟩
      unfold contrib
      rw [if_pos hk]
      by_cases hr : k ∈ reduced
      · obtain ⟨s, rfl⟩ := ht k hr a hm
        rw [if_pos hr]; simp
      · rw [if_neg hr]; simp

/-! ### Writing -/

theorem ed_get_put (ed : Ed) (ref r : Str) (c : Dict Attr) (calls) :
    ({ ed with comps := put ref c ed.comps, calls := calls } : Ed).get r = if r = ref then some c else ed.get r := lookup_put ref r c ed.comps

/-- C65: setting (or removing) one parameter. The line that holds it is written again with the new value in place, in the order of before; a
parameter the component does not have is added at the end of SpiceLine (which is created when missing); everything else, other components included,
stays as it is; the change is recorded. -/
theorem C65_set {β : Type} (T : Texts β) (ed : Ed) (ref : Str) (c : Dict Attr) (hc : ed.get ref = some c) (hp : ed.perm ≠ .deny) (l : Lines) (h : Has c l)
    (hg : ∀ p ∈ l.pairs, T.good p.2) (k : Str) (hk : k ∉ known) (v : Option Str) (hl : Legal T.good l k (v.map strip)) :
    ∃ ed' c' u, setComponentParameters T.norm ed ref [(k, v)] = (ed', none) ∧ ed'.get ref = some c' ∧ Changed T.norm c c' l k (v.map strip) u ∧
      Has c' (l.set T.norm k (v.map strip)) ∧ ed'.calls = ed.calls ++ [(ref ++ ':' :: k, v.map strip, u)] ∧ (∀ r, r ≠ ref → ed'.get r = ed.get r) ∧
      ed'.perm = ed.perm := by
  obtain ⟨c', u, b, e, ch, hh⟩ := key_set T c l h hg k hk (v.map strip) hl none
  refine ⟨{ ed with comps := put ref c' ed.comps, calls := ed.calls ++ [(ref ++ ':' :: k, v.map strip, u)] }, c', u, ?_, ?_, ch, hh, rfl, ?_, rfl⟩
  · simp only [setComponentParameters, hc, if_neg hp, setKeys, e]
  · rw [ed_get_put, if_pos rfl]
  · intro r hr; rw [ed_get_put, if_neg hr]

def stripAll (kvs : Dict (Option Str)) : List (Str × Option Str) := kvs.map (fun e => (e.1, e.2.map strip))

def setAll (norm : Str → Str) (l : Lines) (ops : List (Str × Option Str)) : Lines := ops.foldl (fun l o => l.set norm o.1 o.2) l

theorem set_good {β : Type} (T : Texts β) (l : Lines) (k : Str) (v : Option Str) (hg : ∀ p ∈ l.pairs, T.good p.2) (hl : Legal T.good l k v) :
    ∀ p ∈ (l.set T.norm k v).pairs, T.good p.2 := by
  intro p hp
  rcases set_mem T.norm k v l p hp with m | ⟨q, hq, rfl⟩ | ⟨w, rfl, rfl⟩
  · exact hg p m
  · exact T.again _ (hg q hq)
  · exact hl.2

theorem keys_set {β : Type} (T : Texts β) (ref : Str) : ∀ (kvs : Dict (Option Str)) (kind : Option UpdateType) (c : Dict Attr) (calls) (l : Lines),
    Has c l → (∀ p ∈ l.pairs, T.good p.2) → (∀ e ∈ kvs, e.1 ∉ known) → LegalAll T.norm T.good l (stripAll kvs) →
    ∃ c' calls', setKeys T.norm ref kvs kind c calls = (c', calls', none) ∧ Has c' (setAll T.norm l (stripAll kvs)) ∧
      (∀ p ∈ (setAll T.norm l (stripAll kvs)).pairs, T.good p.2) ∧ (∀ a, a ∉ reduced → c'.lookup a = c.lookup a) := by
  intro kvs
  induction kvs with
  | nil => intro kind c calls l h hg _ _; exact ⟨c, calls, rfl, h, hg, fun _ _ => rfl⟩
  | cons e kvs ih =>
    intro kind c calls l h hg hk hl
    obtain ⟨k, v⟩ := e
    obtain ⟨c1, u, b, e1, ch, hh⟩ := key_set T c l h hg k (hk (k, v) (by simp)) (v.map strip) hl.1 kind
    obtain ⟨c2, calls2, e2, h2, g2, r2⟩ := ih (some u) c1 (calls ++ [(ref ++ ':' :: k, v.map strip, u)]) (l.set T.norm k (v.map strip)) hh
      (set_good T l k _ hg hl.1) (fun e he => hk e (by simp [he])) hl.2
    refine ⟨c2, calls2, ?_, h2, g2, fun a ha => by rw [r2 a ha, ch.rest a ha]⟩
    simp only [setKeys, e1]
    exact e2

theorem setAll_lookup {β : Type} (T : Texts β) (x : Str) : ∀ (ops : List (Str × Option Str)) (l : Lines), (names l.pairs).Nodup → (∀ p ∈ l.pairs, T.good p.2) →
    LegalAll T.norm T.good l ops →
    ((setAll T.norm l ops).pairs.lookup x).map T.read = valueAfter T.read x ((l.pairs.lookup x).map T.read) ops := by
  intro ops
  induction ops with
  | nil => intro l _ _ _; rfl
  | cons o ops ih =>
    intro l hd hg hl
    obtain ⟨k, v⟩ := o
    have := ih (l.set T.norm k v) (set_distinct T.norm k v l hd) (set_good T l k v hg hl.1) hl.2
    simp only [setAll, List.foldl_cons] at this ⊢
    rw [this, set_lookup T k v l hd hg x]
    simp only [valueAfter, eq_comm]

/-- A history of calls of set_component_parameters on one component. -/
def runCalls (norm : Str → Str) (ref : Str) : List (Dict (Option Str)) → Ed → Ed × Option Err
  | [], ed => (ed, none)
  | kvs :: l, ed =>
    match setComponentParameters norm ed ref kvs with
    | (ed', none) => runCalls norm ref l ed'
    | r => r

/-- The value read for a name. -/
def reading {β : Type} (T : Texts β) (ed : Ed) (ref k : Str) : Option β :=
  match getComponentParameters ed ref with
  | .ok d => (d.lookup k).bind (fun s => match s with | .par (.conv v) => some (T.read v) | .par (.set v) => some (T.read v) | .attr _ => none)
  | .error _ => none

theorem reading_eq {β : Type} (T : Texts β) (ed : Ed) (ref : Str) (c : Dict Attr) (hc : ed.get ref = some c) (l : Lines) (h : Has c l) (k : Str) (hk : k ∉ known) :
    reading T ed ref k = (l.pairs.lookup k).map T.read := by
  obtain ⟨d, e, h1, _⟩ := C65_get ed ref c hc l h
  rw [reading, e]
  simp only [h1 k hk]
  cases l.pairs.lookup k <;> rfl

/-- C65: after any history of calls, each with any number of parameters, a parameter reads as the value given to it last, or as it was read at the
start when it was never set; none when it was removed last. The other attributes of the component and all other components are as before. -/
theorem C65_history {β : Type} (T : Texts β) (ref : Str) : ∀ (calls : List (Dict (Option Str))) (ed : Ed) (c : Dict Attr) (l : Lines),
    ed.get ref = some c → ed.perm ≠ .deny → Has c l → (∀ p ∈ l.pairs, T.good p.2) → (∀ kvs ∈ calls, ∀ e ∈ kvs, e.1 ∉ known) →
    LegalAll T.norm T.good l (calls.flatMap stripAll) →
    ∃ ed' c', runCalls T.norm ref calls ed = (ed', none) ∧ ed'.get ref = some c' ∧
      (∀ k, k ∉ known → reading T ed' ref k = valueAfter T.read k (reading T ed ref k) (calls.flatMap stripAll)) ∧
      (∀ a, a ∉ reduced → c'.lookup a = c.lookup a) ∧ ∀ r, r ≠ ref → ed'.get r = ed.get r := by
  have legal_app : ∀ (a b : List (Str × Option Str)) (l : Lines) (norm) (good), LegalAll norm good l (a ++ b) →
      LegalAll norm good l a ∧ LegalAll norm good (setAll norm l a) b := by
    intro a
    induction a with
    | nil => intro b l norm good h; exact ⟨trivial, h⟩
    | cons o a ih =>
      intro b l norm good h
      obtain ⟨h1, h2⟩ := h
      have := ih b _ norm good h2
      exact ⟨⟨h1, this.1⟩, this.2⟩
  have after_app : ∀ (k : Str) (a b : List (Str × Option Str)) (s : Option β), valueAfter T.read k s (a ++ b) = valueAfter T.read k (valueAfter T.read k s a) b := by
    intro k a
    induction a with
    | nil => intro b s; rfl
    | cons o a ih => intro b s; exact ih b _
  intro calls
  induction calls with
  | nil => intro ed c l hc _ h _ _ _; exact ⟨ed, c, rfl, hc, fun k hk => rfl, fun _ _ => rfl, fun _ _ => rfl⟩
  | cons kvs calls ih =>
    intro ed c l hc hp h hg hk hl
    rw [List.flatMap_cons] at hl
    obtain ⟨l1, l2⟩ := legal_app _ _ _ _ _ hl
    obtain ⟨c1, calls1, e1, h1, g1, r1⟩ := keys_set T ref kvs none c ed.calls l h hg (hk kvs (by simp)) l1
    have hget : ({ ed with comps := put ref c1 ed.comps, calls := calls1 } : Ed).get ref = some c1 := by rw [ed_get_put, if_pos rfl]
    obtain ⟨ed2, c2, e2, hc2, v2, r2, o2⟩ := ih { ed with comps := put ref c1 ed.comps, calls := calls1 } c1 _ hget hp h1 g1
      (fun kvs hkvs => hk kvs (by simp [hkvs])) l2
    refine ⟨ed2, c2, ?_, hc2, ?_, fun a ha => by rw [r2 a ha, r1 a ha], ?_⟩
    · rw [runCalls]
      simp only [setComponentParameters, hc, if_neg hp, e1]
      exact e2
    · intro k hkn
      rw [v2 k hkn, reading_eq T _ ref c1 hget _ h1 k hkn, setAll_lookup T k _ l h.distinct hg l1, List.flatMap_cons, after_app,
        reading_eq T ed ref c hc l h k hkn]
    · intro r hr
      rw [o2 r hr, ed_get_put, if_neg hr]

/-! ### Attributes -/

/-- C65: Value, Value2, SpiceModel, SpiceLine and SpiceLine2 are set as a whole, whether the component has them or not. -/
theorem C65_set_attribute (norm : Str → Str) (ed : Ed) (ref : Str) (c : Dict Attr) (hc : ed.get ref = some c) (hp : ed.perm ≠ .deny) (l : Lines) (h : Has c l)
    (k : Str) (hk : k ∈ known) (v : Str) :
    setComponentParameters norm ed ref [(k, some v)] =
      ({ ed with comps := put ref (put k (.text (strip v)) c) ed.comps, calls := ed.calls ++ [(ref ++ ':' :: k, some (strip v), .updateComponentParameter)] }, none) := by
  obtain ⟨es, h1, h2, h3⟩ := entries_spec c (fun k hk a ha => reduced_text c l h k hk a ha)
  have r1 : spiceLine ∈ reduced := by decide +kernel
  have r2 : spiceLine2 ∈ reduced := by decide +kernel
  have o1 := (h3 _ (reduced_known _ r1)).trans (entry_line _ r1 _ _ h.one)
  have o2 := (h3 _ (reduced_known _ r2)).trans (entry_line _ r2 _ _ h.two)
  have dist : ∀ q, (l.one = some q ∨ l.two = some q) → (names q).Nodup := by
    rintro q (e | e)
    · rcases h.one with ⟨_, n⟩ | ⟨s, ps, _, n, i⟩
      · rw [e] at n; cases n
      · rw [e] at n; cases n; exact i.distinct
    · rcases h.two with ⟨_, n⟩ | ⟨s, ps, _, n, i⟩
      · rw [e] at n; cases n
      · rw [e] at n; cases n; exact i.distinct
  have out : k ∉ names l.pairs := fun hm => h.plain k hm hk
  have m1 : ¬ ∃ q, l.one = some q ∧ k ∈ names q := fun m => out ((names_mem l k).2 (Or.inl m))
  have m2 : ¬ ∃ q, l.two = some q ∧ k ∈ names q := fun m => out ((names_mem l k).2 (Or.inr m))
  have key : ∃ b, setKey norm c none k (some (strip v)) = (⟨put k (.text (strip v)) c, some .updateComponentParameter, b⟩, none) := by
    unfold setKey
    rw [h1]
    simp only
    by_cases he : k ∈ es.map Prod.fst
    · rw [if_pos he]; exact ⟨true, rfl⟩
    · rw [if_neg he, look_line norm es k _ spiceLine _ l.one o1 (fun q e => dist q (Or.inl e)), if_neg m1]
      simp only
      rw [look_line norm es k _ spiceLine2 _ l.two o2 (fun q e => dist q (Or.inr e)), if_neg m2]
      simp only [Bool.false_eq_true, if_false, addKey, if_pos hk]
      exact ⟨false, rfl⟩
  obtain ⟨b, e⟩ := key
  simp only [setComponentParameters, hc, if_neg hp, setKeys, Option.map_some, e]

/-- C65: set_component_value changes the attribute Value, and nothing else. -/
theorem C65_set_value (ed : Ed) (ref : Str) (c : Dict Attr) (hc : ed.get ref = some c) (hp : ed.perm ≠ .deny) (old : Attr) (hv : c.lookup value_ = some old) (v : Str) :
    ∃ ed' c', setComponentValue ed ref v = (ed', none) ∧ ed'.get ref = some c' ∧ c'.lookup value_ = some (.text v) ∧
      (∀ a, a ≠ value_ → c'.lookup a = c.lookup a) ∧ (∀ r, r ≠ ref → ed'.get r = ed.get r) ∧
      ed'.calls = ed.calls ++ [(ref, some v, .updateComponentValue)] := by
  have hm : value_ ∈ c.map Prod.fst := by
    by_contra hn
    rw [← lookup_none, hv] at hn; cases hn
  refine ⟨{ ed with comps := put ref (put value_ (.text v) c) ed.comps, calls := ed.calls ++ [(ref, some v, .updateComponentValue)] }, put value_ (.text v) c, ?_, ?_, ?_, ?_, ?_, rfl⟩
  · simp only [setComponentValue, hc, if_pos hm, if_neg hp]
  · rw [ed_get_put, if_pos rfl]
  · rw [lookup_put, if_pos rfl]
  · intro a ha; rw [lookup_put, if_neg ha]
  · intro r hr; rw [ed_get_put, if_neg hr]

/-- C65: the value read back is the one that was set, followed by Value2 when the component has it. -/
theorem C65_get_value (ed : Ed) (ref : Str) (c : Dict Attr) (hc : ed.get ref = some c) (a : Str) (hv : c.lookup value_ = some (.text a)) :
    (c.lookup value2 = none → getComponentValue ed ref = .ok a) ∧
      ∀ b, c.lookup value2 = some (.text b) → getComponentValue ed ref = .ok (a ++ ' ' :: b) := by
  constructor
  · intro h; simp only [getComponentValue, hc, hv, h]
  · intro b h; simp only [getComponentValue, hc, hv, h]

/-- C65: a component without the attribute Value cannot be given one: the call fails and nothing changes. -/
theorem C65_no_value (ed : Ed) (ref : Str) (c : Dict Attr) (hc : ed.get ref = some c) (hv : c.lookup value_ = none) (v : Str) :
    setComponentValue ed ref v = (ed, some .notFound) := by
  simp only [setComponentValue, hc, if_neg ((lookup_none c value_).1 hv)]

/-- C65: names are checked: a component that does not exist is reported and nothing changes. -/
theorem C65_unknown_component (norm : Str → Str) (ed : Ed) (ref : Str) (h : ed.get ref = none) :
    (∀ v, setComponentValue ed ref v = (ed, some .notFound)) ∧ (∀ kvs, setComponentParameters norm ed ref kvs = (ed, some .notFound)) ∧
    getComponentParameters ed ref = .error .notFound ∧ getComponentValue ed ref = .error .notFound ∧ removeComponent ed ref = .error .notFound := by
  refine ⟨fun v => ?_, fun kvs => ?_, ?_, ?_, ?_⟩
  · simp [setComponentValue, h]
  · simp [setComponentParameters, h]
  · simp [getComponentParameters, h]
  · simp [getComponentValue, h]
  · simp [removeComponent, h]

/-- C65: remove_component removes that component only. -/
theorem C65_remove_component (ed : Ed) (ref : Str) (c : Dict Attr) (hc : ed.get ref = some c) :
    ∃ ed', removeComponent ed ref = .ok ed' ∧ ed'.get ref = none ∧ (∀ r, r ≠ ref → ed'.get r = ed.get r) ∧
      ed'.comps = ed.comps.filter (fun e => e.1 ≠ ref) ∧ ed'.calls = ed.calls ++ [(ref, some [], .deleteComponent)] := by
  refine ⟨{ ed with comps := pop ref ed.comps, calls := ed.calls ++ [(ref, some [], .deleteComponent)] }, by simp [removeComponent, hc], ?_, ?_, rfl, rfl⟩
  · simp only [Ed.get, pop, lookup_none, List.mem_map, List.mem_filter]
    rintro ⟨e, ⟨_, h⟩, rfl⟩
    simp at h
  · intro r hr
    simp only [Ed.get, pop]
    induction ed.comps with
    | nil => rfl
    | cons e l ih =>
      obtain ⟨k, v⟩ := e
      by_cases hk : k = ref
      · subst hk
        simpa [List.lookup, beq_eq_false_iff_ne.2 hr] using ih
      · simp only [List.filter_cons, decide_eq_true_eq, ne_eq, hk, not_false_iff, if_true, List.lookup]
        split
        · rfl
        · exact ih

/-! ### Limits -/

def demo (line : String) : Ed := ⟨.inform, [("C1".toList, [("InstName".toList, .text "C1".toList), (value_, .text "1u".toList), (spiceLine, .text line.toList)])], []⟩

/-- C65 limit: removing the last parameter leaves SpiceLine empty; the next parameter cannot be added: TypeError. -/
theorem C65_last_removed_witness :
    let r := setComponentParameters id (demo "Rser=1") "C1".toList [("Rser".toList, none)]
    (r.1.get "C1".toList).bind (·.lookup spiceLine) = some (.text []) ∧ (r.2 = none) ∧
      (setComponentParameters id r.1 "C1".toList [("Lser".toList, some "2".toList)]).2 = some .type := by decide +kernel

/-- C65 limit: removing a parameter the component does not have raises UnboundLocalError. -/
theorem C65_missing_removed_witness :
    (setComponentParameters id (demo "Rser=1") "C1".toList [("Lser".toList, none)]).2 = some .unbound := by decide +kernel

/-- C65 limit: what SpiceLine holds besides `name=value` pairs is lost when a parameter is set. -/
theorem C65_rest_lost_witness :
    ((setComponentParameters id (demo "off Rser=1") "C1".toList [("Rser".toList, some "2".toList)]).1.get "C1".toList).bind (·.lookup spiceLine) =
      some (.text "Rser=2".toList) := by decide +kernel

/-- C65 limit: a SpiceLine without any pair makes adding a parameter fail: TypeError, as does any name that occurs in its text. -/
theorem C65_no_pairs_witness :
    (setComponentParameters id (demo "noiseless") "C1".toList [("Rser".toList, some "1".toList)]).2 = some .type ∧
    (setComponentParameters id (demo "noiseless") "C1".toList [("noise".toList, some "1".toList)]).2 = some .type := by decide +kernel

/-- C65 limit: removing Value, Value2 or SpiceModel (None) stores None in its place, and the value cannot be read any more: TypeError. -/
theorem C65_none_stored_witness :
    let r := setComponentParameters id (demo "Rser=1") "C1".toList [(value_, none)]
    (r.1.get "C1".toList).bind (·.lookup value_) = some .none ∧ r.2 = none ∧
      (getComponentValue r.1 "C1".toList).toOption = none := by decide +kernel

/-- C65 limit: names are compared with their letter case: `rser` is added beside `Rser`. -/
theorem C65_case_witness :
    ((setComponentParameters id (demo "Rser=1") "C1".toList [("rser".toList, some "2".toList)]).1.get "C1".toList).bind (·.lookup spiceLine) =
      some (.text "Rser=1 rser=2".toList) := by decide +kernel

/-- C65 limit: set_component_value then get_component_value gives another text when the component has Value2. -/
theorem C65_value2_witness :
    let ed : Ed := ⟨.inform, [("V1".toList, [(value_, .text "SINE(0 1 1k)".toList), (value2, .text "AC 1".toList)])], []⟩
    (getComponentValue (setComponentValue ed "V1".toList "5".toList).1 "V1".toList).toOption = some "5 AC 1".toList := by decide +kernel

/-! ### The hypotheses are met -/

/-- Integers with leading zeros are written again without them. -/
def sampleTexts : Texts Str where
  norm v := if v = "007".toList then "7".toList else v
  read v := if v = "007".toList then "7".toList else v
  good v := Value v
  value _ h := h
  again v h := by
    split
    · exact Or.inr (Or.inr ⟨"7".toList, [], rfl, by decide, fun c hc => Or.inl (by revert c; decide +kernel), by simp⟩)
    · exact h
  same v _ := by
    by_cases h : v = "007".toList
    · rw [if_pos h]; rfl
    · rw [if_neg h, if_neg h]

def sampleLines : Lines := ⟨some [("Rser".toList, "007".toList), ("Lser".toList, "1n".toList)], some [("temp".toList, "{t}".toList)]⟩

def sampleComp : Dict Attr := [("InstName".toList, .text "C1".toList), (value_, .text "1u".toList), ("_WINDOW 0".toList, .other 3),
  (spiceLine, .text "Rser=007  Lser = 1n ".toList), (spiceLine2, .text "temp={t}".toList)]

def sampleEd : Ed := ⟨.inform, [("R1".toList, [(value_, .text "1k".toList)]), ("C1".toList, sampleComp)], []⟩

theorem sample_name (n : Str) (h : (decide (n ≠ []) && n.all (fun c => c.isAlpha || c.isDigit || decide (c = '_'))) = true) : Name n := by
  simp only [Bool.and_eq_true, decide_eq_true_eq, List.all_eq_true, Bool.or_eq_true] at h
  exact ⟨h.1, fun c hc => by rcases h.2 c hc with (h | h) | h; exacts [Or.inl h, Or.inr (Or.inl h), Or.inr (Or.inr h)]⟩

theorem sample_has : Has sampleComp sampleLines := by
  refine ⟨by decide +kernel, ?_, ?_, by decide +kernel, by decide +kernel⟩
  · refine Or.inr ⟨"Rser=007  Lser = 1n ".toList, _, by decide +kernel, rfl, ⟨?_, by decide +kernel, by simp⟩⟩
    refine ⟨[⟨" ".toList, "Rser".toList, "=".toList, "007".toList⟩, ⟨"  ".toList, "Lser".toList, " = ".toList, "1n".toList⟩], " ".toList, by decide +kernel, ?_, ?_, rfl⟩
    · intro i hi
      simp only [List.mem_cons, List.not_mem_nil, or_false] at hi
      rcases hi with rfl | rfl
      · refine ⟨by decide, by intro c hc; revert c; decide +kernel, sample_name _ (by decide +kernel), Or.inl ⟨[], [], rfl, by simp [Blank], by simp [Blank]⟩, ?_⟩
        refine Or.inr (Or.inr ⟨"007".toList, [], rfl, by decide, ?_, by simp⟩)
        intro c hc; left; revert c; decide +kernel
      · refine ⟨by decide, by intro c hc; revert c; decide +kernel, sample_name _ (by decide +kernel), Or.inl ⟨" ".toList, " ".toList, rfl, ?_, ?_⟩, ?_⟩
        · intro c hc; revert c; decide +kernel
        · intro c hc; revert c; decide +kernel
        refine Or.inr (Or.inr ⟨"1".toList, "n".toList, rfl, by decide, ?_, ?_⟩)
        · intro c hc; left; revert c; decide +kernel
        · intro c hc; left; revert c; decide +kernel
    · intro c hc; revert c; decide +kernel
  · refine Or.inr ⟨"temp={t}".toList, _, by decide +kernel, rfl, ⟨?_, by decide +kernel, by simp⟩⟩
    refine ⟨[⟨" ".toList, "temp".toList, "=".toList, "{t}".toList⟩], [], by decide +kernel, ?_, by simp [Blank], rfl⟩
    intro i hi
    rw [List.mem_singleton] at hi; subst hi
    refine ⟨by decide, by intro c hc; revert c; decide +kernel, sample_name _ (by decide +kernel), Or.inl ⟨[], [], rfl, by simp [Blank], by simp [Blank]⟩, ?_⟩
    exact Or.inl ⟨"t".toList, rfl, by decide⟩

/-- The hypotheses of C65_get, C65_set, C65_history and C65_set_attribute hold for a capacitor with both lines and a history of two calls. -/
example : sampleEd.get "C1".toList = some sampleComp ∧ Has sampleComp sampleLines ∧ (∀ p ∈ sampleLines.pairs, sampleTexts.good p.2) ∧
    LegalAll sampleTexts.norm sampleTexts.good sampleLines
      ([[("Lser".toList, none), ("temp".toList, some " 27 ".toList)], [("Cpar".toList, some "2p".toList)]].flatMap stripAll) := by
  have hv : ∀ v : Str, (∃ n u : Str, v = n ++ u ∧ n ≠ [] ∧ (n.all Char.isDigit && u.all Char.isAlpha) = true) → Value v := by
    rintro v ⟨n, u, rfl, h0, h⟩
    simp only [Bool.and_eq_true, List.all_eq_true] at h
    exact Or.inr (Or.inr ⟨n, u, rfl, h0, fun c hc => Or.inl (h.1 c hc), fun c hc => Or.inl (h.2 c hc)⟩)
  refine ⟨by decide +kernel, sample_has, ?_, ?_⟩
  · intro p hp
    rw [show sampleLines.pairs = [("Rser".toList, "007".toList), ("Lser".toList, "1n".toList), ("temp".toList, "{t}".toList)] from rfl] at hp
    simp only [List.mem_cons, List.not_mem_nil, or_false] at hp
    rcases hp with rfl | rfl | rfl
    · exact hv _ ⟨"007".toList, [], rfl, by decide, by decide +kernel⟩
    · exact hv _ ⟨"1".toList, "n".toList, rfl, by decide, by decide +kernel⟩
    · exact Or.inl ⟨"t".toList, rfl, by decide⟩
  · refine ⟨⟨by decide +kernel, ?_⟩, ⟨sample_name _ (by decide +kernel), hv _ ⟨"27".toList, [], by decide +kernel, by decide, by decide +kernel⟩⟩,
      ⟨sample_name _ (by decide +kernel), hv _ ⟨"2".toList, "p".toList, by decide +kernel, by decide, by decide +kernel⟩⟩, trivial⟩
    rintro ps (e | e) hk
    · cases e; decide +kernel
    · cases e; exact absurd hk (by decide +kernel)

end Props.SchComp
