import Verif.Lemmas.AscFile
import Mathlib.Data.List.GetD
import Mathlib.Data.List.TakeWhile
/-! What a schematic that was read from a file looks like. -/
namespace Lemmas.AscLoad
open Model.Asc Model.PyStr Lemmas.PyStr Lemmas.Asc Lemmas.AscLines Lemmas.AscFile
open Spec.AscFile hiding Str

theorem toUpper_idem (c : Char) : c.toUpper.toUpper = c.toUpper := by
  by_cases h : c.toNat < 128
  · exact ascii_ind (P := fun c => c.toUpper.toUpper = c.toUpper) (by decide) c h
  · rw [toUpper_big c (by omega), toUpper_big c (by omega)]

theorem upper_idem (s : Str) : upper (upper s) = upper s := by
  unfold upper
  rw [List.map_map]
  apply List.map_congr_left
  intro c _
  exact toUpper_idem c

/-- AttrOk without the condition on underscores. -/
def AttrLoaded (a : Str × AttrVal) : Prop :=
  ∃ k v : Str, a = (k, .str v) ∧ Word k ∧ k ≠ "InstName".toList ∧ v ≠ [] ∧ Trimmed v ∧ (upper k = "PREFIX".toList → upper v = v)

structure CompLoaded (c : Comp) : Prop where
  symbol : ∃ ws : List Str, (∀ w ∈ ws, Word w) ∧ c.symbol = List.intercalate [' '] ws
  rot : Orientation c.rot
  reference : Trimmed c.reference
  attrs : ∀ a ∈ c.attrs, WindowOk a ∨ AttrLoaded a
  keys : (c.attrs.map Prod.fst).Nodup

structure SchLoaded (s : Sch) : Prop where
  version : s.version ∈ ["4".toList, "4.0".toList, "4.1".toList]
  sheet : Trimmed s.sheet
  wires : ∀ w ∈ s.wires, w.pattern = []
  labels : ∀ t ∈ s.labels, LabelOk t
  comps : ∀ p ∈ s.comps, p.1 = p.2.reference ∧ CompLoaded p.2
  refs : (s.comps.map Prod.fst).Nodup
  directives : ∀ t ∈ s.directives, DirectiveOk t
  lines : ∀ l ∈ s.lines, PatternOk l.pattern
  shapes : ∀ h ∈ s.shapes, ShapeOk h

structure RdOk (r : Rd) : Prop where
  sch : SchLoaded r.sch
  pending : ∀ c, r.pending = some c → CompLoaded c

theorem forall_append {α : Type} {P : α → Prop} {l : List α} {a : α} (h : ∀ x ∈ l, P x) (ha : P a) : ∀ x ∈ l ++ [a], P x := by
  intro x hx
  rcases List.mem_append.1 hx with hx | hx
  · exact h x hx
  · obtain rfl := List.mem_singleton.1 hx; exact ha

theorem flush_ok {r : Rd} (h : RdOk r) : SchLoaded (flush r) := by
  unfold flush
  cases hp : r.pending with
  | none => exact h.sch
  | some c =>
    have hc := h.pending c hp
    obtain ⟨a, b, d, e, f, g, i, j, k⟩ := h.sch
    refine ⟨a, b, d, e, ?_, dset_nodup _ _ _ g, i, j, k⟩
    intro p hp
    rcases dset_mem _ _ _ p hp with rfl | hp
    · exact ⟨rfl, hc⟩
    · exact f p hp

theorem trimmed_nil : Trimmed ([] : Str) := ⟨by simp, by simp, by simp⟩

theorem rotOf_ok {n : Str} {r : Nat} (h : rotOf n = some r) : Orientation r := by
  unfold rotOf at h
  have : ∀ (l : List (Str × Nat)), l.lookup n = some r → (n, r) ∈ l := by
    intro l
    induction l with
    | nil => intro h; cases h
    | cons p l ih =>
      obtain ⟨k, v⟩ := p
      intro h
      rw [List.lookup_cons] at h
      by_cases hk : n == k
      · rw [hk] at h
        simp only at h
        obtain rfl := Option.some.inj h
        rw [eq_of_beq hk]; exact List.mem_cons_self
      · simp only [Bool.not_eq_true] at hk
        rw [hk] at h
        exact List.mem_cons_of_mem _ (ih h)
  have hm := this _ h
  have : r ∈ rotations.map Prod.snd := List.mem_map.2 ⟨_, hm, rfl⟩
  exact this

theorem alignSet_ok {t t' : Text} {a : Str} (h : alignSet t a = some t') (hv : t.visible = true) :
    Aligned t' ∧ (t'.angle = 0 ∨ t'.angle = 90) ∧ t'.x = t.x ∧ t'.y = t.y ∧ t'.text = t.text ∧ t'.size = t.size ∧ t'.type = t.type ∧
    (((lower a).head? ≠ some 'v') → t'.angle = 0) := by
  obtain ⟨x, y, tx, sz, ty, ho, ve, an, vi⟩ := t
  simp only at hv
  subst hv
  unfold alignSet at h
  simp only at h
  have fin : ∀ (b : Prop) [Decidable b], ((if b then 90 else 0 : Nat) = 0 ∨ (if b then 90 else 0 : Nat) = 90) := by
    intro b _; split_ifs <;> simp
  split_ifs at h <;> first
    | (cases h; done)
    | (rw [Option.map_some] at h
       obtain rfl := Option.some.inj h
       refine ⟨⟨by simp, by simp⟩, by simp, rfl, rfl, rfl, rfl, rfl, fun _ => rfl⟩)
    | (rw [Option.map_some] at h
       obtain rfl := Option.some.inj h
       rename_i hv _
       refine ⟨⟨by simp, by simp⟩, by simp, rfl, rfl, rfl, rfl, rfl, fun hn => absurd (by assumption) hn⟩)

theorem readSymbol_ok {r r' : Rd} {l : Str} (h : RdOk r) (e : readSymbol r l = some r') : RdOk r' := by
  unfold readSymbol at e
  simp only at e
  split_ifs at e with hl
  generalize hd : ((words l).drop 1).drop (((words l).drop 1).length - 3) = d at e
  match d, e with
  | [px, py, ro], e =>
    simp only [Option.bind_eq_bind, Option.bind_eq_some_iff] at e
    obtain ⟨x, _, y, _, rot, hr, e⟩ := e
    obtain rfl := Option.some.inj e
    refine ⟨flush_ok h, ?_⟩
    intro c hc
    obtain rfl := Option.some.inj hc
    refine ⟨⟨_, fun w hw => words_are_words l w (List.drop_subset _ _ (List.take_subset _ _ hw)), row_intercalate _⟩, rotOf_ok hr, trimmed_nil, ?_, ?_⟩
    · intro a ha; cases ha
    · exact List.nodup_nil

theorem attrs_dset {k : Str} {v : AttrVal} {l : List (Str × AttrVal)} {P : Str × AttrVal → Prop} (h : ∀ a ∈ l, P a) (hk : P (k, v)) :
    ∀ a ∈ dset k v l, P a := by
  intro a ha
  rcases dset_mem _ _ _ a ha with rfl | ha
  · exact hk
  · exact h a ha

theorem readWindow_ok {r r' : Rd} {l : Str} (h : RdOk r) (e : readWindow r l = some r') : RdOk r' := by
  unfold readWindow at e
  generalize hw : words l = ws at e
  cases hp : r.pending with
  | none => rw [hp] at e; cases e
  | some c =>
    rw [hp] at e
    match ws, e, hw with
    | [w0, num, px, py, al, sz], e, hw =>
      simp only [Option.bind_eq_bind, Option.bind_eq_some_iff] at e
      obtain ⟨x, _, y, _, size, _, t, ht, e⟩ := e
      obtain rfl := Option.some.inj e
      have hc := h.pending c hp
      obtain ⟨a1, a2, a3, a4, a5, a6, a7, a8⟩ := alignSet_ok ht rfl
      refine ⟨h.sch, ?_⟩
      intro c' hc'
      obtain rfl := Option.some.inj hc'
      refine ⟨hc.symbol, hc.rot, hc.reference, ?_, dset_nodup _ _ _ hc.keys⟩
      apply attrs_dset hc.attrs
      exact Or.inl ⟨num, t, rfl, words_are_words l num (by rw [hw]; simp), a5, a7, a1, a2⟩

theorem split3_ok {l a b v : Str} (hl : '\n' ∉ l) (e : split3 l = some (a, b, v)) :
    Word b ∧ v ≠ [] ∧ (∀ c, v.head? = some c → isSpace c = false) ∧ '\n' ∉ v := by
  unfold split3 at e
  simp only at e
  split_ifs at e with h
  obtain ⟨rfl, rfl, rfl⟩ : _ ∧ _ ∧ _ := by simpa using e
  refine ⟨⟨?_, ?_⟩, h, dropWhile_head_false _ _, ?_⟩
  · intro hb
    apply h
    generalize hs2 : lstrip ((lstrip l).dropWhile (fun c => !isSpace c)) = s2 at hb ⊢
    cases s2 with
    | nil => rfl
    | cons d s2 =>
      have hd := dropWhile_head_false isSpace ((lstrip l).dropWhile (fun c => !isSpace c)) d (by
        have : lstrip ((lstrip l).dropWhile (fun c => !isSpace c)) = ((lstrip l).dropWhile (fun c => !isSpace c)).dropWhile isSpace := rfl
        rw [← this, hs2]; rfl)
      rw [List.takeWhile_cons, if_pos (by simp [hd])] at hb
      cases hb
  · intro c hc
    have := List.mem_takeWhile_imp hc
    simpa using this
  · intro hm
    unfold lstrip at hm
    exact hl (((List.dropWhile_sublist _).trans ((List.dropWhile_sublist _).trans ((List.dropWhile_sublist _).trans
      ((List.dropWhile_sublist _).trans (List.dropWhile_sublist _))))).subset hm)

theorem strip_ne {v : Str} (hne : v ≠ []) (h : ∀ c, v.head? = some c → isSpace c = false) : strip v ≠ [] := by
  unfold strip
  rw [lstrip_head h]
  unfold rstrip
  intro e
  rw [List.reverse_eq_nil_iff, List.dropWhile_eq_nil_iff] at e
  cases v with
  | nil => exact hne rfl
  | cons c v =>
    have := e c (by simp)
    rw [h c rfl] at this
    cases this

theorem trimmed_upper {v : Str} (h : Trimmed v) : Trimmed (upper v) := by
  have sp : ∀ c : Char, isSpace c.toUpper = isSpace c := by
    intro c
    by_cases h : c.toNat < 128
    · exact ascii_ind (P := fun c => isSpace c.toUpper = isSpace c) (by decide +kernel) c h
    · rw [toUpper_big c (by omega)]
  have nl : ∀ c : Char, c.toUpper = '\n' → c = '\n' := by
    intro c
    by_cases h : c.toNat < 128
    · exact ascii_ind (P := fun c => c.toUpper = '\n' → c = '\n') (by decide +kernel) c h
    · rw [toUpper_big c (by omega)]; exact id
  unfold upper
  refine ⟨?_, ?_, ?_⟩
  · intro c hc
    rw [List.head?_map, Option.map_eq_some_iff] at hc
    obtain ⟨d, hd, rfl⟩ := hc
    rw [sp]; exact h.1 d hd
  · intro c hc
    rw [List.getLast?_map, Option.map_eq_some_iff] at hc
    obtain ⟨d, hd, rfl⟩ := hc
    rw [sp]; exact h.2.1 d hd
  · intro hm
    obtain ⟨d, hd, e⟩ := List.mem_map.1 hm
    rw [nl d e] at hd
    exact h.2.2 hd

theorem readAttr_ok {r r' : Rd} {l : Str} (hl : '\n' ∉ l) (h : RdOk r) (e : readAttr r l = some r') : RdOk r' := by
  unfold readAttr at e
  cases hp : r.pending with
  | none => rw [hp] at e; cases e
  | some c =>
    rw [hp] at e
    have hc := h.pending c hp
    cases hs : split3 l with
    | none => rw [hs] at e; cases e
    | some p =>
      obtain ⟨a, b, v⟩ := p
      rw [hs] at e
      obtain ⟨s1, s2, s3, s4⟩ := split3_ok hl hs
      have ht := trimmed_strip s4
      simp only at e
      by_cases hi : b = "InstName".toList
      · rw [if_pos hi] at e
        obtain rfl := Option.some.inj e
        refine ⟨h.sch, ?_⟩
        intro c' hc'
        obtain rfl := Option.some.inj hc'
        exact ⟨hc.symbol, hc.rot, ht, hc.attrs, hc.keys⟩
      · rw [if_neg hi] at e
        obtain rfl := Option.some.inj e
        refine ⟨h.sch, ?_⟩
        intro c' hc'
        obtain rfl := Option.some.inj hc'
        refine ⟨hc.symbol, hc.rot, hc.reference, ?_, dset_nodup _ _ _ hc.keys⟩
        apply attrs_dset hc.attrs
        refine Or.inr ⟨b, _, rfl, s1, hi, ?_, ?_, ?_⟩
        · split_ifs
          · intro e; unfold upper at e; exact strip_ne s2 s3 (List.map_eq_nil_iff.1 e)
          · exact strip_ne s2 s3
        · split_ifs
          · exact trimmed_upper ht
          · exact ht
        · intro hx
          rw [if_pos hx, upper_idem]

theorem takeInt_sub {s r : Str} {n : Int} (h : takeInt s = some (n, r)) : ∀ c ∈ r, c ∈ s := by
  unfold takeInt at h
  simp only at h
  split at h
  · rename_i d
    split_ifs at h
    · cases h
    · simp only [Option.map_some, Option.some.injEq, Prod.mk.injEq] at h
      intro c hc
      rw [← h.2] at hc
      exact List.mem_cons_of_mem _ ((List.dropWhile_sublist _).subset hc)
  · split_ifs at h
    · cases h
    · simp only [Option.map_some, Option.some.injEq, Prod.mk.injEq] at h
      intro c hc
      rw [← h.2] at hc
      exact (List.dropWhile_sublist _).subset hc

theorem takeBlanks_sub {s r : Str} (h : takeBlanks s = some r) : ∀ c ∈ r, c ∈ s := by
  unfold takeBlanks at h
  split at h
  · split_ifs at h
    obtain rfl := Option.some.inj h
    intro c hc
    exact List.mem_cons_of_mem _ ((List.dropWhile_sublist _).subset hc)
  · cases h

theorem toLower_v (c : Char) : c.toLower = 'v' → c = 'V' ∨ c = 'v' := by
  by_cases h : c.toNat < 128
  · exact ascii_ind (P := fun c => c.toLower = 'v' → c = 'V' ∨ c = 'v') (by decide) c h
  · rw [toLower_big c (by omega)]; intro e; exact Or.inr e

theorem takeAlign_sub {s a r : Str} (h : takeAlign s = some (a, r)) : (∀ c ∈ r, c ∈ s) ∧ (lower a).head? ≠ some 'v' := by
  unfold takeAlign at h
  rw [Option.map_eq_some_iff] at h
  obtain ⟨w, hw, e⟩ := h
  simp only [Prod.mk.injEq] at e
  obtain ⟨rfl, rfl⟩ := e
  have hm := List.mem_of_find?_eq_some hw
  have hp := List.find?_some hw
  refine ⟨fun c hc => List.drop_subset _ _ hc, ?_⟩
  have hpre : w <+: lower s := List.isPrefixOf_iff_prefix.1 hp
  have : lower (s.take w.length) = w := by
    unfold lower at hpre ⊢
    rw [List.map_take]
    exact (List.prefix_iff_eq_take.1 hpre).symm
  rw [this]
  simp only [List.mem_cons, List.not_mem_nil, or_false] at hm
  rcases hm with rfl | rfl | rfl | rfl | rfl | rfl <;> decide

theorem textMatch_ok {l : Str} {x y size : Int} {a text : Str} {k : Char} (hl : '\n' ∉ l) (h : textMatch l = some (x, y, a, size, k, text)) :
    '\n' ∉ text ∧ 0 ≤ size ∧ (lower a).head? ≠ some 'v' := by
  unfold textMatch at h
  split_ifs at h with h0
  simp only [Option.bind_eq_bind, Option.bind_eq_some_iff] at h
  obtain ⟨⟨x', s1⟩, e1, s2, e2, ⟨y', s3⟩, e3, s4, e4, ⟨a', s5⟩, e5, h⟩ := h
  simp only at h e5
  have m1 := takeInt_sub e1
  have m2 := takeBlanks_sub e2
  have m3 := takeInt_sub e3
  have m4 := takeBlanks_sub e4
  obtain ⟨m5, hv⟩ := takeAlign_sub e5
  have all : ∀ c ∈ s5, c ∈ l := by
    intro c hc
    have := m5 c hc
    have : c ∈ s4 := by
      split_ifs at this
      · exact List.drop_subset _ _ this
      · exact this
    exact List.drop_subset _ _ (m1 c (m2 c (m3 c (m4 c this))))
  cases s5 with
  | nil => cases h
  | cons d s5 =>
    simp only at h
    split_ifs at h
    split at h
    · cases h
    · rename_i k' text' heq
      split_ifs at h
      simp only [Option.some.injEq, Prod.mk.injEq] at h
      obtain ⟨rfl, rfl, rfl, rfl, rfl, rfl⟩ := h
      refine ⟨?_, by omega, hv⟩
      intro hm
      apply hl
      apply all
      apply List.mem_cons_of_mem
      have : '\n' ∈ (s5.dropWhile Char.isDigit).dropWhile isSpace := by rw [heq]; exact List.mem_cons_of_mem _ hm
      exact ((List.dropWhile_sublist _).trans (List.dropWhile_sublist _)).subset this

theorem readText_ok {r r' : Rd} {l : Str} (hl : '\n' ∉ l) (h : RdOk r) (e : readText r l = some r') : RdOk r' := by
  unfold readText at e
  cases ht : textMatch l with
  | none =>
    rw [ht] at e
    obtain rfl := Option.some.inj e
    exact h
  | some p =>
    obtain ⟨x, y, al, size, k, text⟩ := p
    rw [ht] at e
    simp only [Option.bind_eq_bind, Option.bind_eq_some_iff] at e
    obtain ⟨t, ha, e⟩ := e
    obtain rfl := Option.some.inj e
    obtain ⟨t1, t2, t3⟩ := textMatch_ok hl ht
    obtain ⟨a1, a2, a3, a4, a5, a6, a7, a8⟩ := alignSet_ok ha rfl
    obtain ⟨a, b, d, e, f, g, i, j, k⟩ := h.sch
    refine ⟨⟨a, b, d, e, f, g, forall_append i ?_, j, k⟩, h.pending⟩
    refine ⟨?_, a1, a8 t3, by rw [a6]; exact t2, by rw [a5]; exact trimmed_strip t1⟩
    rw [a7]
    simp only
    split_ifs <;> simp

theorem pattern_getD {l : Str} (n : Nat) : PatternOk ((words l).getD n []) := by
  by_cases h : n < (words l).length
  · right
    apply words_are_words l
    rw [List.getD_eq_getElem _ _ h]
    exact List.getElem_mem h
  · left
    exact List.getD_eq_default _ _ (by omega)

theorem readFigure_ok {r r' : Rd} {l : Str} (h : RdOk r) (e : readFigure r l = some r') : RdOk r' := by
  unfold readFigure at e
  simp only at e
  by_cases hl : (words l).length = 6 ∨ (words l).length = 7
  swap
  · rw [if_neg hl] at e; cases e
  rw [if_pos hl] at e
  simp only [Option.bind_eq_bind, Option.bind_eq_some_iff] at e
  obtain ⟨x1, _, y1, _, x2, _, y2, _, e⟩ := e
  obtain rfl := Option.some.inj e
  obtain ⟨a, b, d, e, f, g, i, j, k⟩ := h.sch
  have key : ∀ s : Sch, SchLoaded s → SchLoaded (if (words l).getD 0 [] = "RECTANGLE".toList ∨ (words l).getD 0 [] = "CIRCLE".toList then
      { s with shapes := s.shapes ++ [{ name := (words l).getD 0 [], points := [(x1, y1), (x2, y2)], pattern := (words l).getD 6 [] }] } else s) := by
    intro s hs
    obtain ⟨a, b, d, e, f, g, i, j, k⟩ := hs
    split_ifs with hw
    · refine ⟨a, b, d, e, f, g, i, j, forall_append k ⟨pattern_getD 6, ?_⟩⟩
      rcases hw with hw | hw
      · exact Or.inl ⟨hw, rfl⟩
      · exact Or.inr (Or.inl ⟨hw, rfl⟩)
    · exact ⟨a, b, d, e, f, g, i, j, k⟩
  refine ⟨key _ ?_, h.pending⟩
  split_ifs
  · exact ⟨a, b, d, e, f, g, i, forall_append j (pattern_getD 6), k⟩
  · exact ⟨a, b, d, e, f, g, i, j, k⟩

theorem readArc_ok {r r' : Rd} {l : Str} (h : RdOk r) (e : readArc r l = some r') : RdOk r' := by
  unfold readArc at e
  simp only at e
  split_ifs at e with hl
  simp only [Option.bind_eq_bind, Option.bind_eq_some_iff] at e
  obtain ⟨x1, _, y1, _, x2, _, y2, _, x3, _, y3, _, x4, _, y4, _, e⟩ := e
  obtain rfl := Option.some.inj e
  obtain ⟨a, b, d, e, f, g, i, j, k⟩ := h.sch
  exact ⟨⟨a, b, d, e, f, g, i, j, forall_append k ⟨pattern_getD 10, Or.inr (Or.inr ⟨rfl, rfl⟩)⟩⟩, h.pending⟩

theorem step_ok {r r' : Rd} {l : Str} (hl : '\n' ∉ l) (h : RdOk r) (e : step r l = some r') : RdOk r' := by
  unfold step at e
  cases hk : kind l with
  | symbol => rw [hk] at e; exact readSymbol_ok h e
  | window => rw [hk] at e; exact readWindow_ok h e
  | symattr => rw [hk] at e; exact readAttr_ok hl h e
  | text => rw [hk] at e; exact readText_ok hl h e
  | wire =>
    rw [hk] at e
    simp only at e
    split at e
    · simp only [Option.bind_eq_bind, Option.bind_eq_some_iff] at e
      obtain ⟨x1, _, y1, _, x2, _, y2, _, e⟩ := e
      obtain rfl := Option.some.inj e
      obtain ⟨a, b, d, e, f, g, i, j, k⟩ := h.sch
      exact ⟨⟨a, b, forall_append d rfl, e, f, g, i, j, k⟩, h.pending⟩
    · cases e
  | flag =>
    rw [hk] at e
    simp only at e
    split at e
    · rename_i w0 wa wb text hw
      simp only [Option.bind_eq_bind, Option.bind_eq_some_iff] at e
      obtain ⟨x1, _, y1, _, e⟩ := e
      obtain rfl := Option.some.inj e
      obtain ⟨a, b, d, e, f, g, i, j, k⟩ := h.sch
      exact ⟨⟨a, b, d, forall_append e ⟨words_are_words l text (by rw [hw]; simp), rfl⟩, f, g, i, j, k⟩, h.pending⟩
    · cases e
  | version =>
    rw [hk] at e
    simp only at e
    split at e
    · split_ifs at e with hv
      obtain rfl := Option.some.inj e
      obtain ⟨a, b, d, e, f, g, i, j, k⟩ := h.sch
      refine ⟨⟨?_, b, d, e, f, g, i, j, k⟩, h.pending⟩
      simp only [List.mem_cons, List.not_mem_nil, or_false]
      exact hv
    · cases e
  | sheet =>
    rw [hk] at e
    obtain rfl := Option.some.inj e
    obtain ⟨a, b, d, e, f, g, i, j, k⟩ := h.sch
    exact ⟨⟨a, trimmed_strip (fun hm => hl (List.drop_subset _ _ hm)), d, e, f, g, i, j, k⟩, h.pending⟩
  | iopin =>
    rw [hk] at e
    simp only at e
    split at e
    · simp only [Option.bind_eq_bind, Option.bind_eq_some_iff] at e
      obtain ⟨x, _, y, _, e⟩ := e
      split_ifs at e
      obtain rfl := Option.some.inj e
      obtain ⟨a, b, d, e, f, g, i, j, k⟩ := h.sch
      exact ⟨⟨a, b, d, e, f, g, i, j, k⟩, h.pending⟩
    · cases e
  | figure => rw [hk] at e; exact readFigure_ok h e
  | arc => rw [hk] at e; exact readArc_ok h e
  | dataflag =>
    rw [hk] at e
    obtain rfl := Option.some.inj e
    exact h
  | unknown => rw [hk] at e; cases e

theorem steps_ok {ls : List Str} (hl : ∀ l ∈ ls, '\n' ∉ l) {r r' : Rd} (h : RdOk r) (e : steps r ls = some r') : RdOk r' := by
  induction ls generalizing r with
  | nil =>
    obtain rfl := Option.some.inj e
    exact h
  | cons l ls ih =>
    rw [steps, Option.bind_eq_some_iff] at e
    obtain ⟨r1, e1, e2⟩ := e
    exact ih (fun m hm => hl m (List.mem_cons_of_mem _ hm)) (step_ok (hl l List.mem_cons_self) h e1) e2

theorem empty_ok : RdOk { sch := {}, pending := none } := by
  refine ⟨⟨by simp, ⟨by decide, by decide, by decide⟩, ?_, ?_, ?_, ?_, ?_, ?_, ?_⟩, ?_⟩
  all_goals first
    | exact List.nodup_nil
    | (intro a ha; cases ha)

theorem read_loaded {txt : Str} {s : Sch} (h : Model.Asc.read txt = some s) : SchLoaded s := by
  unfold Model.Asc.read at h
  rw [Option.map_eq_some_iff] at h
  obtain ⟨r, hr, rfl⟩ := h
  exact flush_ok (steps_ok (linesOf_clean txt) empty_ok hr)

theorem loaded_wellFormed {s : Sch} (h : SchLoaded s) (hn : Named s) : WellFormed s := by
  obtain ⟨a, b, d, e, f, g, i, j, k⟩ := h
  refine ⟨a, b, d, e, ?_, g, i, j, k⟩
  intro p hp
  obtain ⟨h1, h2⟩ := f p hp
  obtain ⟨n1, n2⟩ := hn p hp
  refine ⟨h1, ⟨h2.symbol, h2.rot, ⟨by rw [← h1]; exact n1, h2.reference⟩, ?_, h2.keys⟩⟩
  intro x hx
  rcases h2.attrs x hx with h | ⟨k, v, rfl, w1, w2, w3, w4, w5⟩
  · exact Or.inl h
  · exact Or.inr ⟨k, v, rfl, w1, n2 _ hx rfl, w2, w3, w4, w5⟩

theorem save_settled (s : Sch) : save (settled s) = save s := by
  have hc : ∀ c : Comp, compLines (sortAttrs c) = compLines c := by
    intro c
    unfold compLines sortAttrs
    simp only [List.filterMap_append]
    rw [filterMap_filter windowLine _ windowLine_isWindow,
      filterMap_filter attrLine (fun a => !isWindow a) (fun a ha => attrLine_isWindow a (by simpa using ha))]
    have e1 : (c.attrs.filter (fun a => !isWindow a)).filterMap windowLine = [] := by
      rw [List.filterMap_eq_nil_iff]
      intro a ha
      exact windowLine_isWindow a (by simpa using (List.mem_filter.1 ha).2)
    have e2 : (c.attrs.filter isWindow).filterMap attrLine = [] := by
      rw [List.filterMap_eq_nil_iff]
      intro a ha
      exact attrLine_isWindow a (List.mem_filter.1 ha).2
    rw [e1, e2, List.append_nil, List.nil_append]
  unfold save write settled
  simp only [List.map_map, Function.comp_def, hc]

end Lemmas.AscLoad
