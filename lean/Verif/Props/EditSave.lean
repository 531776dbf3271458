import Verif.Model.EditSave
import Verif.Spec.EditSave
import Verif.Props.NetSave
import Verif.Props.NewComp
import Verif.Lemmas.ParamSave
import Mathlib.Data.List.Forall2
import Mathlib.Data.List.Induction

/-! C103: setting values, saving and opening again. -/
namespace Props.EditSave
open Model.EditSave Spec.EditSave
open Model.CompLine (WordClass reset rewrite Attrs)
open Model.Params (PV)
open Model.PyStr (isSpace upper rstrip)
open Model.NetTree (Item writeItem)
open Model.NetSave (loadText untouchedLine)
open Spec.NetBlocks Spec.LogicalLine
open Spec.CompLine (Line Short Shape ShortKind)
open Props.Params (NameOk)
open Props.CompLine Lemmas.CompLine

abbrev Str := List Char

variable (w : WordClass) (numeric : Str → Bool) (shown : PV → Str)

/-! ### One component -/

/-- What is written for a component whose value was set, piece by piece. -/
theorem write_value (l : Line) (sh : Shape) (h : l.Ok w.word sh) (hn : ∀ i ∈ l.items, NameOk numeric i.2.name) (hs : l.Spaced) (v : Str)
    (hv : Spec.CompLine.ValueOk w.word (l.itemsText ++ l.comment) sh v) (h1 : ∀ c ∈ v, c ≠ '\n' ∧ c ≠ '\r') :
    ∃ l', rewrite w numeric shown (l.text ++ ['\n']) { read l with value := some v } = .ok (l'.text ++ ['\n']) ∧ l'.Ok w.word sh ∧
      ((l' = l ∧ l.value = v) ∨ ∃ B, (∀ c ∈ B, c = ' ') ∧ l' = renewed l v l.items B (rstrip l.comment)) := by
  have hr := (rewrite_eq w numeric shown h hn hs { read l with value := some v } v rfl rfl rfl (value_ends (words_visible w h) hv) (value_semi w hv)).1
  have hnd : Model.CompLine.differ (({ read l with value := some v } : Attrs).params.getD []) (Lemmas.CompLine.dictOf (l.items.map Prod.snd)) = false := by
    show Model.CompLine.differ ((read l).params.getD []) _ = false
    rw [read_params, Props.CompLine.differ_false _ _ (dict_keys _) (dict_keys _)]
    intro _; rfl
  rw [hr hnd]
  by_cases e : l.nodesText = nodesText (single l.nodes) ∧ l.value = v
  · rw [if_pos e]
    exact ⟨l, rfl, h, .inl ⟨rfl, e.2⟩⟩
  · rw [if_neg e, tail_eq w h]
    let B := if l.blanks = [] then [' '] else l.blanks
    have hB : B ≠ [] := by simp only [B]; split <;> simp_all
    have hBs : ∀ c ∈ B, c = ' ' := by
      intro c hc
      simp only [B] at hc
      split at hc
      · simpa using hc
      · exact hs.1 c (by simp only [Line.text, List.mem_append]; exact .inl (.inr hc)) (h.blanks c hc)
    have hBc : (if l.comment = [] then ([] : Str) else B ++ rstrip l.comment) = if l.comment = [] then [] else l.blanks ++ rstrip l.comment := by
      by_cases ec : l.comment = []
      · simp [ec]
      · rw [if_neg ec, if_neg ec]
        have : l.blanks ≠ [] := (h.comment.resolve_left ec).1
        simp [B, this]
    refine ⟨renewed l v l.items B (rstrip l.comment), ?_, ?_, .inr ⟨B, hBs, rfl⟩⟩
    · rw [renewed_text _ _ _ _ (same_stripped w h hs), hBc]; rfl
    · refine renewed_ok w h v l.items h.items hv B _ hB (fun c hc => by rw [hBs c hc]; decide) (same_stripped w h hs) ?_
      intro c hc
      simp only [List.mem_append, or_assoc] at hc
      rcases hc with g | g | g
      · exact h1 c g
      · exact h.oneLine c (by simp only [Line.text, List.mem_append]; exact .inl (.inl (.inr g)))
      · rw [hBs c g]; decide

theorem quiet_breaks {l : Line} {v : Str} {sh : Shape} (hf : Fits w.word l sh v) : ∀ c ∈ v, c ≠ '\n' ∧ c ≠ '\r' := by
  intro c hc
  constructor
  · rintro rfl; exact absurd (hf.blanks _ hc (by decide)) (by decide)
  · rintro rfl; exact absurd (hf.blanks _ hc (by decide)) (by decide)

theorem rstrip_sub (s : Str) : ∀ c ∈ rstrip s, c ∈ s := by
  intro c hc
  unfold rstrip at hc
  have := List.dropWhile_sublist (p := isSpace) (l := s.reverse) |>.subset
  simpa using this (List.mem_reverse.1 hc)

/-- The part after its line was written with the value `v`. -/
theorem comp_saved (l : Line) (sh : Shape) (h : (Part.comp l sh).Ok w.word (NameOk numeric)) (v : Str) (hv : Fits w.word l sh v) :
    ∃ l', rewrite w numeric shown (l.text ++ ['\n']) { read l with value := some v } = .ok (l'.text ++ ['\n']) ∧
      (Part.comp l' sh).Ok w.word (NameOk numeric) ∧ SameButValue l l' ∧ l'.value = v := by
  obtain ⟨h1, h2, h3, h4⟩ := h
  obtain ⟨l', e, hok, hc⟩ := write_value w numeric shown l sh h1 h2 h3 v hv.value (quiet_breaks w hv)
  refine ⟨l', e, ?_⟩
  rcases hc with ⟨rfl, hval⟩ | ⟨B, hB, rfl⟩
  · exact ⟨⟨h1, h2, h3, h4⟩, ⟨rfl, rfl, rfl, rfl, rfl, rfl, rfl⟩, hval⟩
  · refine ⟨⟨hok, h2, ⟨?_, h3.2⟩, ⟨h4.name, ?_, h4.pre, hv.quiet, h4.items⟩⟩, ⟨rfl, rfl, rfl, by simp [renewed, single], rfl, rfl, rstrip_rstrip _⟩, rfl⟩
    · intro c hc hsp
      rw [renewed_text _ _ _ _ (same_stripped w h1 h3)] at hc
      have old : ∀ c, c ∈ l.designator ++ l.nodesText ++ l.gap ++ l.pre ++ l.value ++ l.itemsText ++ l.blanks ++ l.comment → isSpace c = true → c = ' ' := h3.1
      simp only [List.mem_append, or_assoc] at hc
      rcases hc with g | g | g | g | g | g | g
      · exact old c (by simp [g]) hsp
      · simp only [nodesText, single, List.mem_flatMap, List.mem_map] at g
        obtain ⟨_, ⟨m, hm, rfl⟩, g⟩ := g
        simp only [List.mem_append, List.mem_singleton] at g
        rcases g with g | g
        · exact g
        · refine old c ?_ hsp
          have : c ∈ l.nodesText := List.mem_flatMap.2 ⟨m, hm, by simp [g]⟩
          simp [this]
      · exact old c (by simp [g]) hsp
      · exact old c (by simp [g]) hsp
      · exact hv.blanks c g hsp
      · have : c ∈ l.itemsText := g
        exact old c (by simp [this]) hsp
      · split at g
        · simp at g
        · rcases List.mem_append.1 g with g | g
          · exact hB c g
          · exact old c (by simp [rstrip_sub _ c g]) hsp
    · intro n hn
      simp only [renewed, single, List.mem_map] at hn
      obtain ⟨m, hm, rfl⟩ := hn
      exact h4.nodes m hm

theorem rstrip_visible {s : Str} {c : Char} (hc : c ∈ s) (hs : isSpace c = false) : c ∈ rstrip s := by
  unfold rstrip
  rw [List.mem_reverse]
  have h : c ∈ s.reverse := List.mem_reverse.2 hc
  generalize s.reverse = t at h
  induction t with
  | nil => simp at h
  | cons a t ih =>
    rw [List.dropWhile_cons]
    split
    · rename_i ha
      rcases List.mem_cons.1 h with rfl | h
      · rw [hs] at ha; simp at ha
      · exact ih h
    · exact h

theorem same_trans {l l' l'' : Line} (h : SameButValue l l') (h' : SameButValue l' l'') : SameButValue l l'' :=
  ⟨h'.1.trans h.1, h'.2.1.trans h.2.1, h'.2.2.1.trans h.2.2.1, h'.2.2.2.1.trans h.2.2.2.1, h'.2.2.2.2.1.trans h.2.2.2.2.1, h'.2.2.2.2.2.1.trans h.2.2.2.2.2.1,
    h'.2.2.2.2.2.2.trans h.2.2.2.2.2.2⟩

theorem same_reference {l l' : Line} (h : SameButValue l l') : l'.reference = l.reference := by
  unfold Line.reference; rw [h.1, h.2.1, h.2.2.1]

theorem fits_same {l l' : Line} {sh : Shape} {v : Str} (h : SameButValue l l') (hf : Fits w.word l sh v) : Fits w.word l' sh v := by
  refine ⟨value_sub w ?_ hf.value, hf.quiet, hf.blanks⟩
  intro q hsp hq hq'
  apply hq
  have e : l'.itemsText = l.itemsText := by simp [Line.itemsText, h.2.2.2.2.2.1]
  rw [e] at hq'
  simp only [List.mem_append] at hq' ⊢
  exact hq'.imp id (fun g => rstrip_sub _ _ (by rw [← h.2.2.2.2.2.2]; exact rstrip_visible g hsp))

theorem nest_spaces (b : Str) (h : ∀ c ∈ b, c = ' ') : nest b = some outside := by
  induction b with
  | nil => rfl
  | cons c b ih =>
    rw [h c (by simp), Props.NewComp.nest_space]
    exact ih (fun x hx => h x (by simp [hx]))

/-- A line of a component takes one line. -/
theorem comp_oneLine (l : Line) (sh : Shape) (h : (Part.comp l sh).Ok w.word (NameOk numeric)) : OneLine (l.text ++ ['\n']) := by
  obtain ⟨h1, h2, h3, h4⟩ := h
  have hl := Props.NewComp.letter_ok h1.shape
  have head : ∀ (c : Char), Spec.CompLine.shape c = none → (l.text ++ ['\n']).head? ≠ some c := by
    intro c hc e
    simp only [Line.text, Line.designator, List.cons_append, List.head?_cons, Option.some.injEq] at e
    have := h1.shape
    rw [e, hc] at this; simp at this
  refine ⟨⟨l.text, rfl, .inr ?_⟩, head _ (by decide), head _ (by decide)⟩
  let t := l.designator ++ l.nodesText ++ l.gap ++ l.pre ++ l.value ++ l.itemsText ++ l.blanks
  have ht : l.text = t ++ l.comment := rfl
  have sp : ∀ (b : Str), (∀ c ∈ b, isSpace c = true) → (∀ c ∈ b, c ∈ l.text) → ∀ c ∈ b, c = ' ' := fun b g1 g2 c hc => h3.1 c (g2 c hc) (g1 c hc)
  have inT : ∀ c ∈ t, c ∈ l.text := fun c hc => by rw [ht]; simp [hc]
  have hnode : ∀ n ∈ l.nodes, ∀ c ∈ n.1, c = ' ' := by
    intro n hn
    refine sp n.1 (h1.nodes n hn).1.2 (fun c hc => inT c ?_)
    have : c ∈ l.nodesText := List.mem_flatMap.2 ⟨n, hn, by simp [hc]⟩
    simp [t, this]
  have hgap := sp l.gap h1.gap.2 (fun c hc => inT c (by simp [t, hc]))
  have hbl := sp l.blanks h1.blanks (fun c hc => inT c (by simp [t, hc]))
  have hnest : nest t = some outside := by
    have e : t = l.letter :: ((if l.marked then ['§'] else []) ++ (l.name ++ (l.nodesText ++ (l.gap ++ (l.pre ++ (l.value ++ (l.itemsText ++ l.blanks))))))) := by
      simp [t, Line.designator]
    rw [e, hl.2]
    have hm : nest (if l.marked then ['§'] else []) = some outside := by split <;> rfl
    rw [Props.NewComp.nest_append _ _ hm, Props.NewComp.nest_append _ _ h4.name.1, Props.NewComp.nest_append, Props.NewComp.nest_append _ _ (nest_spaces _ hgap),
      Props.NewComp.nest_append _ _ h4.pre.1, Props.NewComp.nest_append _ _ h4.value.1, Props.NewComp.nest_append _ _ h4.items.1, nest_spaces _ hbl]
    apply Props.NewComp.nest_flat
    intro n hn
    rw [Props.NewComp.nest_append _ _ (nest_spaces _ (hnode n hn))]
    exact (h4.nodes n hn).1
  have hsemi : ';' ∉ t := by
    intro hc
    simp only [t, Line.designator, List.mem_append, List.mem_cons, or_assoc] at hc
    rcases hc with g | g | g | g | g | g | g | g | g
    · have := h1.shape
      rw [← g, show Spec.CompLine.shape ';' = none by decide] at this; simp at this
    · split at g <;> simp at g
    · exact h4.name.2 g
    · obtain ⟨n, hn, g⟩ := List.mem_flatMap.1 g
      rcases List.mem_append.1 g with g | g
      · exact absurd (hnode n hn _ g) (by decide)
      · exact (h4.nodes n hn).2 g
    · exact absurd (hgap _ g) (by decide)
    · exact h4.pre.2 g
    · exact h4.value.2 g
    · exact h4.items.2 g
    · exact absurd (hbl _ g) (by decide)
  have hub : Unbroken t := by
    refine Props.NewComp.smooth_unbroken (fun c hc => ⟨(h1.oneLine c (inT c hc)).1, (h1.oneLine c (inT c hc)).2, ?_⟩) ?_
    · rintro rfl; exact hsemi hc
    · simp only [t, Line.designator, List.cons_append, List.head?_cons, ne_eq, Option.some.injEq]
      exact hl.1
  rcases h1.comment with hc | ⟨_, hc⟩
  · rw [ht, hc, List.append_nil]
    exact .inl ⟨hub, hnest⟩
  · cases hcm : l.comment with
    | nil => rw [hcm] at hc; simp at hc
    | cons c x =>
      rw [hcm] at hc
      simp only [List.head?_cons, Option.some.injEq] at hc
      subst hc
      refine .inr ⟨t, x, by rw [ht, hcm], ?_, hub, hnest⟩
      intro hx
      exact (h1.oneLine '\n' (by rw [ht, hcm]; simp [hx])).1 rfl

/-! ### The elements of a netlist -/

/-- The element that stands for a part. -/
def Rel : Part → El → Prop
  | .comp l sh, el => ∃ l', el = .comp (l'.text ++ ['\n']) { read l' with value := some l.value } ∧ SameButValue l l' ∧
      (Part.comp l' sh).Ok w.word (NameOk numeric) ∧ Fits w.word l' sh l.value
  | .short l k, el => el = .comp (l.text ++ ['\n']) { ref := l.reference, ports := l.nodes.map Prod.snd, value := some l.value, params := none } ∧
      (Part.short l k).Ok w.word (NameOk numeric)
  | .params l, el => ∃ l', el = .item (.prim l'.text) ∧ SameParams l l' ∧ ParamsOk l'
  | .block b, el => el = .item (Props.NetTree.item b) ∧ (Part.block b).Ok w.word (NameOk numeric)

theorem set_rel (r v : Str) : ∀ (qs : List Part) (els : List El) (rest : List El), List.Forall₂ (Rel w numeric) qs els → Settable w.word r v qs →
    ∃ els', setValue r v (els ++ rest) = some (els' ++ rest) ∧ List.Forall₂ (Rel w numeric) (setFirst r v qs) els' := by
  intro qs
  induction qs with
  | nil => intro els rest h hs; exact absurd hs (by simp [Settable])
  | cons q qs ih =>
    intro els rest h hs
    cases h with
    | cons hq ht =>
      rename_i el els
      cases q with
      | comp l sh =>
        obtain ⟨l', rfl, hsame, hok, hfit⟩ := hq
        simp only [Settable] at hs
        rcases hs with ⟨e, hf⟩ | ⟨e, hs⟩
        · refine ⟨.comp (l'.text ++ ['\n']) { read l' with value := some v } :: els, ?_, ?_⟩
          · simp only [List.cons_append, setValue]
            rw [if_pos]
            show upper l'.reference = _
            rw [same_reference hsame]; exact e
          · simp only [setFirst, if_pos e]
            exact .cons ⟨l', rfl, hsame, hok, fits_same w hsame hf⟩ ht
        · obtain ⟨els', g1, g2⟩ := ih els rest ht hs
          refine ⟨.comp (l'.text ++ ['\n']) { read l' with value := some l.value } :: els', ?_, ?_⟩
          · simp only [List.cons_append, setValue]
            rw [if_neg, g1]
            · rfl
            · show ¬ upper l'.reference = _
              rw [same_reference hsame]; exact e
          · simp only [setFirst, if_neg e]
            exact .cons ⟨l', rfl, hsame, hok, hfit⟩ g2
      | short l k =>
        obtain ⟨rfl, hok⟩ := hq
        simp only [Settable] at hs
        obtain ⟨els', g1, g2⟩ := ih els rest ht hs.2
        refine ⟨_ :: els', ?_, .cons ⟨rfl, hok⟩ g2⟩
        simp only [List.cons_append, setValue]
        rw [if_neg hs.1, g1]
        rfl
      | params l =>
        obtain ⟨l', rfl, hok⟩ := hq
        simp only [Settable] at hs
        obtain ⟨els', g1, g2⟩ := ih els rest ht hs
        refine ⟨_ :: els', ?_, .cons ⟨l', rfl, hok⟩ g2⟩
        simp only [List.cons_append, setValue]
        rw [g1]
        rfl
      | block b =>
        obtain ⟨rfl, hok⟩ := hq
        simp only [Settable] at hs
        obtain ⟨els', g1, g2⟩ := ih els rest ht hs
        refine ⟨_ :: els', ?_, .cons ⟨rfl, hok⟩ g2⟩
        simp only [List.cons_append, setValue]
        rw [g1]
        rfl

theorem get_rel (r : Str) (rest : List El) (hr : getValue r rest = none) : ∀ (qs : List Part) (els : List El), List.Forall₂ (Rel w numeric) qs els →
    getValue r (els ++ rest) = first r qs := by
  intro qs
  induction qs with
  | nil => intro els h; cases h; simpa [first] using hr
  | cons q qs ih =>
    intro els h
    cases h with
    | cons hq ht =>
      rename_i el els
      have ih := ih els ht
      cases q with
      | comp l sh =>
        obtain ⟨l', rfl, hsame, hok, hfit⟩ := hq
        simp only [List.cons_append, getValue, first, List.filterMap_cons, Part.entry, List.find?_cons]
        have e : ({ read l' with value := some l.value } : Attrs).ref = l.reference := same_reference hsame
        rw [e]
        by_cases c : upper l.reference = upper r
        · rw [if_pos c]; simp [c]
        · rw [if_neg c, ih]
          have : (upper l.reference == upper r) = false := by simpa using c
          simp only [this]; rfl
      | short l k =>
        obtain ⟨rfl, hok⟩ := hq
        simp only [List.cons_append, getValue, first, List.filterMap_cons, Part.entry, List.find?_cons]
        by_cases c : upper l.reference = upper r
        · rw [if_pos c]; simp [c]
        · rw [if_neg c, ih]
          have : (upper l.reference == upper r) = false := by simpa using c
          simp only [this]; rfl
      | params l =>
        obtain ⟨l', rfl, hok⟩ := hq
        simp only [List.cons_append, getValue, first, List.filterMap_cons, Part.entry]
        rw [ih]; rfl
      | block b =>
        obtain ⟨rfl, hok⟩ := hq
        simp only [List.cons_append, getValue, first, List.filterMap_cons, Part.entry]
        rw [ih]; rfl

variable (included : Str → Option Str)

theorem save_rel (rest : List El) (e : Str) (hr : save w numeric shown included rest = some e) : ∀ (qs : List Part) (els : List El), List.Forall₂ (Rel w numeric) qs els →
    ∃ ps, List.Forall₂ Part.Same qs ps ∧ (∀ p ∈ ps, p.Ok w.word (NameOk numeric)) ∧
      save w numeric shown included (els ++ rest) = some ((linesOf (ps.map Part.toBlock)).flatten ++ e) := by
  intro qs
  induction qs with
  | nil => intro els h; cases h; exact ⟨[], .nil, by simp, by simpa [linesOf] using hr⟩
  | cons q qs ih =>
    intro els h
    cases h with
    | cons hq ht =>
      rename_i el els
      obtain ⟨ps, i1, i2, i3⟩ := ih els ht
      have main : ∃ p, Part.Same q p ∧ p.Ok w.word (NameOk numeric) ∧ writeEl w numeric shown included el = some p.toBlock.lines.flatten := by
        cases q with
        | comp l sh =>
          obtain ⟨l', rfl, hsame, hok, hfit⟩ := hq
          obtain ⟨l'', g1, g2, g3, g4⟩ := comp_saved w numeric shown l' sh hok l.value hfit
          refine ⟨.comp l'' sh, ⟨same_trans hsame g3, g4, rfl⟩, g2, ?_⟩
          simp only [writeEl]
          rw [g1]
          simp [Part.toBlock, Block.lines]
        | short l k =>
          obtain ⟨rfl, hok⟩ := hq
          refine ⟨.short l k, rfl, hok, ?_⟩
          simp only [writeEl]
          rw [Props.CompShort.C63_short_untouched w numeric shown l k hok.1 hok.2.1 _ (Props.CompShort.reset_short w numeric shown hok.1) hok.2.2.1 hok.2.2.2.1]
          simp [Part.toBlock, Block.lines]
        | params l =>
          obtain ⟨l', rfl, hs, hok⟩ := hq
          refine ⟨.params l', hs, hok, ?_⟩
          simp only [writeEl, writeItem, Part.toBlock, Block.lines]
          have := hok.tidy
          unfold Spec.NetSave.Tidy at this
          rw [this]; simp
        | block b =>
          obtain ⟨rfl, hok⟩ := hq
          refine ⟨.block b, rfl, hok, ?_⟩
          simp only [writeEl, Part.toBlock]
          rw [Props.NetSave.write_block w numeric shown (fun s => s) included b hok.1 hok.2.1 (by rw [hok.2.2.1]; simp), Props.NetSave.inlined_none _ _ hok.2.2.1]
      obtain ⟨p, m1, m2, m3⟩ := main
      refine ⟨p :: ps, .cons m1 i1, ?_, ?_⟩
      · intro x hx
        rcases List.mem_cons.1 hx with rfl | hx
        · exact m2
        · exact i2 x hx
      · simp only [List.cons_append, save, m3, i3, List.map_cons, linesOf, List.flatten_append, List.append_assoc]

/-! ### Opening -/

theorem params_command (l : Spec.ParamLine.Line) (h : ParamsOk l) : Model.Netlist.lineCommand l.text = some ".PARAM".toList := by
  have := Props.SpiceParam.command_line [] l ⟨by simp, h.line, h.word⟩
  simpa using this

theorem params_kind (l : Spec.ParamLine.Line) (h : ParamsOk l) : kindOf l.text = some .other := by
  unfold kindOf
  rw [params_command l h]
  decide +kernel

theorem part_ok (p : Part) (h : p.Ok w.word (NameOk numeric)) : p.toBlock.ok ∧ ∀ s ∈ p.toBlock.lines, OneLine s := by
  cases p with
  | comp l sh =>
    refine ⟨.inr (.inl (Props.NetSave.kind_letter _ _ (Props.NetSave.letter_prefix _ (.inl ⟨sh, h.1.shape⟩)))), ?_⟩
    intro s hs
    simp only [Part.toBlock, Block.lines, List.mem_singleton] at hs
    rw [hs]; exact comp_oneLine w numeric l sh h
  | short l k =>
    refine ⟨.inr (.inl (Props.NetSave.kind_letter _ _ (Props.NetSave.letter_prefix _ (.inr ⟨k, h.1.kind⟩)))), ?_⟩
    intro s hs
    simp only [Part.toBlock, Block.lines, List.mem_singleton] at hs
    rw [hs]; exact h.2.2.2.2
  | params l =>
    refine ⟨.inr (.inr (.inr (params_kind l h))), ?_⟩
    intro s hs
    simp only [Part.toBlock, Block.lines, List.mem_singleton] at hs
    rw [hs]; exact Lemmas.ParamSave.params_oneLine l h
  | block b => exact ⟨h.1, h.2.2.2.1⟩

theorem parts_ok (ps : List Part) (h : ∀ p ∈ ps, p.Ok w.word (NameOk numeric)) : allOk (ps.map Part.toBlock) ∧ ∀ s ∈ linesOf (ps.map Part.toBlock), OneLine s := by
  induction ps with
  | nil => exact ⟨trivial, by simp [linesOf]⟩
  | cons p ps ih =>
    have hp := part_ok w numeric p (h p (by simp))
    have ih := ih (fun x hx => h x (by simp [hx]))
    refine ⟨⟨hp.1, ih.1⟩, ?_⟩
    intro s hs
    simp only [List.map_cons, linesOf, List.mem_append] at hs
    exact hs.elim (hp.2 s) (ih.2 s)

theorem own_fits (l : Line) (sh : Shape) (h : (Part.comp l sh).Ok w.word (NameOk numeric)) : Fits w.word l sh l.value :=
  ⟨h.1.value, h.2.2.2.value, fun c hc hs => h.2.2.1.1 c (by simp [Line.text, hc]) hs⟩

theorem to_rel (p : Part) (h : p.Ok w.word (NameOk numeric)) : ∃ el, toEl w numeric shown (Props.NetTree.item p.toBlock) = some el ∧ Rel w numeric p el := by
  cases p with
  | comp l sh =>
    have hk : kindOf (l.text ++ ['\n']) = some .comp := Props.NetSave.kind_letter _ _ (Props.NetSave.letter_prefix _ (.inl ⟨sh, h.1.shape⟩))
    refine ⟨.comp (l.text ++ ['\n']) (read l), ?_, ?_⟩
    · simp only [Part.toBlock, Props.NetTree.item, hk, toEl]
      rw [reset_line w numeric shown h.1 h.2.1]
    · exact ⟨l, rfl, ⟨rfl, rfl, rfl, rfl, rfl, rfl, rfl⟩, h, own_fits w numeric l sh h⟩
  | short l k =>
    have hk : kindOf (l.text ++ ['\n']) = some .comp := Props.NetSave.kind_letter _ _ (Props.NetSave.letter_prefix _ (.inr ⟨k, h.1.kind⟩))
    refine ⟨_, ?_, ⟨rfl, h⟩⟩
    simp only [Part.toBlock, Props.NetTree.item, hk, toEl]
    rw [Props.CompShort.reset_short w numeric shown h.1]
  | params l =>
    refine ⟨.item (.prim l.text), ?_, ⟨l, rfl, ⟨rfl, rfl, rfl⟩, h⟩⟩
    simp only [Part.toBlock, Props.NetTree.item, params_kind l h, toEl]
  | block b =>
    refine ⟨.item (Props.NetTree.item b), ?_, ⟨rfl, h⟩⟩
    simp only [Part.toBlock]
    cases b with
    | line s =>
      have hn := (h.2.2.2.2 s rfl).1
      simp only [Props.NetTree.item]
      cases hk : kindOf s with
      | none => rfl
      | some k =>
        rw [hk] at hn
        cases k <;> first | rfl | exact absurd rfl hn
    | subckt hd body t => simp only [Props.NetTree.item, toEl]
    | control hd body t => simp only [Props.NetTree.item, toEl]

theorem tos_rel (rest : List Item) (els0 : List El) (hr : toEls w numeric shown rest = some els0) (ps : List Part) (h : ∀ p ∈ ps, p.Ok w.word (NameOk numeric)) :
    ∃ els, toEls w numeric shown (Props.NetTree.itemsOf (ps.map Part.toBlock) ++ rest) = some (els ++ els0) ∧ List.Forall₂ (Rel w numeric) ps els := by
  induction ps with
  | nil => exact ⟨[], by simpa [Props.NetTree.itemsOf] using hr, .nil⟩
  | cons p ps ih =>
    obtain ⟨els, i1, i2⟩ := ih (fun x hx => h x (by simp [hx]))
    obtain ⟨el, g1, g2⟩ := to_rel w numeric shown p (h p (by simp))
    refine ⟨el :: els, ?_, .cons g2 i2⟩
    simp only [List.map_cons, Props.NetTree.itemsOf, List.cons_append, toEls, g1, i1]

theorem open_rel (ps : List Part) (h : ∀ p ∈ ps, p.Ok w.word (NameOk numeric)) (e : Str) (he : kindOf e = some .closing) (hl : OneLine e) :
    ∃ els, openText w numeric shown (fileText ps e) = some (els ++ [.item (.prim e)]) ∧ List.Forall₂ (Rel w numeric) ps els := by
  obtain ⟨h1, h2⟩ := parts_ok w numeric ps h
  have hp : Props.NetSave.Plain (linesOf (ps.map Part.toBlock) ++ [e]) := by
    intro s hs
    rcases List.mem_append.1 hs with hs | hs
    · exact h2 s hs
    · rw [List.mem_singleton.1 hs]; exact hl
  have := Props.NetSave.load_closed false _ h1 e he [] (by simp) hp
  unfold openText fileText
  rw [this]
  obtain ⟨els, g1, g2⟩ := tos_rel w numeric shown [.prim e] [.item (.prim e)] (by simp [toEls, toEl]) ps h
  refine ⟨els, ?_, g2⟩
  simpa [Props.NetTree.comments] using g1

theorem params_trans {l l' l'' : Spec.ParamLine.Line} (h : SameParams l l') (h' : SameParams l' l'') : SameParams l l'' :=
  ⟨h'.1.trans h.1, h'.2.1.trans h.2.1, h'.2.2.trans h.2.2⟩

theorem rel_same {q p : Part} {el : El} (h : Part.Same q p) (hr : Rel w numeric p el) : Rel w numeric q el := by
  cases q with
  | comp l sh =>
    cases p with
    | comp l' sh' =>
      obtain ⟨h1, h2, rfl⟩ := h
      obtain ⟨l'', g1, g2, g3, g4⟩ := hr
      rw [h2] at g1 g4
      exact ⟨l'', g1, same_trans h1 g2, g3, g4⟩
    | short l' k => simp [Part.Same] at h
    | params l' => simp [Part.Same] at h
    | block b => simp [Part.Same] at h
  | short l k => simp only [Part.Same] at h; rw [h] at hr; exact hr
  | params l =>
    cases p with
    | params l' =>
      obtain ⟨l'', g1, g2, g3⟩ := hr
      exact ⟨l'', g1, params_trans h g2, g3⟩
    | comp l' sh => simp [Part.Same] at h
    | short l' k => simp [Part.Same] at h
    | block b => simp [Part.Same] at h
  | block b => simp only [Part.Same] at h; rw [h] at hr; exact hr

theorem rels_same : ∀ (qs ps : List Part) (els : List El), List.Forall₂ Part.Same qs ps → List.Forall₂ (Rel w numeric) ps els → List.Forall₂ (Rel w numeric) qs els := by
  intro qs
  induction qs with
  | nil => intro ps els h hr; cases h; exact hr
  | cons q qs ih =>
    intro ps els h hr
    cases h with
    | cons a b => cases hr with
      | cons c d => exact .cons (rel_same w numeric a c) (ih _ _ b d)

/-! ### Parameters -/

open Model.SpiceParam (findParam look insertSection)
open Spec.ParamLine (find assign)
open Model.ParamRegex (named findIter)

theorem not_param {s : Str} {k : Model.NetTree.Kind} (h : kindOf s = some k) (hk : k ≠ .other) : ∃ cmd, Model.Netlist.lineCommand s = some cmd ∧ cmd ≠ ".PARAM".toList := by
  unfold kindOf at h
  cases hc : Model.Netlist.lineCommand s with
  | none => rw [hc] at h; simp at h
  | some cmd =>
    rw [hc] at h
    simp only [Option.map_some, Option.some.injEq] at h
    refine ⟨cmd, rfl, ?_⟩
    rintro rfl
    have : Model.NetTree.kind ".PARAM".toList = .other := by decide +kernel
    exact hk (h.symm.trans this)

theorem look_other (q : Part) (el : El) (h : Rel w numeric q el) (hq : ∀ l, q ≠ .params l) :
    look (asElem el) = .skip ∨ ∃ s cmd, look (asElem el) = .line s ∧ Model.Netlist.lineCommand s = some cmd ∧ cmd ≠ ".PARAM".toList := by
  cases q with
  | comp l sh =>
    obtain ⟨l', rfl, _, hok, _⟩ := h
    have hk : kindOf (l'.text ++ ['\n']) = some .comp := Props.NetSave.kind_letter _ _ (Props.NetSave.letter_prefix _ (.inl ⟨sh, hok.1.shape⟩))
    obtain ⟨cmd, g⟩ := not_param hk (by decide)
    exact .inr ⟨_, cmd, rfl, g⟩
  | short l k =>
    obtain ⟨rfl, hok⟩ := h
    have hk : kindOf (l.text ++ ['\n']) = some .comp := Props.NetSave.kind_letter _ _ (Props.NetSave.letter_prefix _ (.inr ⟨k, hok.1.kind⟩))
    obtain ⟨cmd, g⟩ := not_param hk (by decide)
    exact .inr ⟨_, cmd, rfl, g⟩
  | params l => exact absurd rfl (hq l)
  | block b =>
    obtain ⟨rfl, hok⟩ := h
    cases b with
    | line s =>
      have hn := (hok.2.2.2.2 s rfl).2
      have hb : kindOf s = some .text ∨ kindOf s = some .comp ∨ kindOf s = some .incl ∨ kindOf s = some .other := hok.1
      have key : ∀ k, kindOf s = some k → ∃ cmd, Model.Netlist.lineCommand s = some cmd ∧ cmd ≠ ".PARAM".toList := by
        intro k hk
        unfold kindOf at hk
        cases hc : Model.Netlist.lineCommand s with
        | none => rw [hc] at hk; simp at hk
        | some cmd => exact ⟨cmd, rfl, by rintro rfl; exact hn hc⟩
      simp only [Props.NetTree.item]
      rcases hb with hb | hb | hb | hb
      · obtain ⟨cmd, g⟩ := key _ hb
        rw [hb]; exact .inr ⟨s, cmd, rfl, g⟩
      · obtain ⟨cmd, g⟩ := key _ hb
        rw [hb]; exact .inr ⟨s, cmd, rfl, g⟩
      · rw [hb]; exact .inl rfl
      · obtain ⟨cmd, g⟩ := key _ hb
        rw [hb]; exact .inr ⟨s, cmd, rfl, g⟩
    | subckt hd body t => simp only [Props.NetTree.item]; exact .inl rfl
    | control hd body t => simp only [Props.NetTree.item]; exact .inl rfl

theorem find_other (p : Str) (el : Model.Netlist.Elem) (es : List Model.Netlist.Elem)
    (h : look el = .skip ∨ ∃ s cmd, look el = .line s ∧ Model.Netlist.lineCommand s = some cmd ∧ cmd ≠ ".PARAM".toList) :
    findParam p (el :: es) = (match findParam p es with | .error x => .error x | .ok r => .ok (r.map (fun q => (q.1 + 1, q.2)))) := by
  rw [findParam]
  rcases h with h | ⟨s, cmd, h, h1, h2⟩
  · rw [h]
    cases findParam p es <;> rfl
  · rw [h]
    simp only
    rw [h1]
    simp only [if_neg h2]
    cases findParam p es <;> rfl

theorem assign_pairs (p v : Str) : ∀ a b : List Spec.ParamLine.Item, a.map (fun i => (i.name, i.value)) = b.map (fun i => (i.name, i.value)) →
    (assign p v a).map (fun i => (i.name, i.value)) = (assign p v b).map (fun i => (i.name, i.value)) := by
  intro a
  induction a with
  | nil => intro b h; cases b with
    | nil => rfl
    | cons => simp at h
  | cons i a ih =>
    intro b h
    cases b with
    | nil => simp at h
    | cons j b =>
      simp only [List.map_cons, List.cons.injEq, Prod.mk.injEq] at h
      simp only [assign, h.1.1]
      split
      · simp [h.1.1, h.2]
      · simp [h.1.1, h.1.2, ih b h.2]

/-- Looking for a parameter, and changing its line. -/
theorem find_rel (p : Str) (rest : List El) (hrest : findParam p (rest.map asElem) = .ok none) : ∀ (qs : List Part) (els : List El), List.Forall₂ (Rel w numeric) qs els →
    (paramOf p qs = none → findParam p ((els ++ rest).map asElem) = .ok none) ∧
    ∀ x, paramOf p qs = some x → ∃ i m, findParam p ((els ++ rest).map asElem) = .ok (some (i, m)) ∧ m.value = x ∧
      ∀ v, ParamFits v → ∃ els', (els ++ rest).modify i (setLine (fun s => insertSection s m.start m.stop v ++ ['\n'])) = els' ++ rest ∧
        List.Forall₂ (Rel w numeric) (setDefined p v qs) els' := by
  intro qs
  induction qs with
  | nil =>
    intro els h
    cases h
    exact ⟨fun _ => hrest, fun x hx => by simp [paramOf, find] at hx⟩
  | cons q qs ih =>
    intro els h
    cases h with
    | cons hq ht =>
      rename_i el els
      obtain ⟨i1, i2⟩ := ih els ht
      have other : (∀ l, q ≠ .params l) → (paramOf p (q :: qs) = none → findParam p (((el :: els) ++ rest).map asElem) = .ok none) ∧
          ∀ x, paramOf p (q :: qs) = some x → ∃ i m, findParam p (((el :: els) ++ rest).map asElem) = .ok (some (i, m)) ∧ m.value = x ∧
            ∀ v, ParamFits v → ∃ els', ((el :: els) ++ rest).modify i (setLine (fun s => insertSection s m.start m.stop v ++ ['\n'])) = els' ++ rest ∧
              List.Forall₂ (Rel w numeric) (setDefined p v (q :: qs)) els' := by
        intro hne
        have hitems : q.items = [] := by
          cases q with
          | params l => exact absurd rfl (hne l)
          | comp l sh => rfl
          | short l k => rfl
          | block b => rfl
        have hset : ∀ v, setDefined p v (q :: qs) = q :: setDefined p v qs := by
          intro v
          cases q with
          | params l => exact absurd rfl (hne l)
          | comp l sh => rfl
          | short l k => rfl
          | block b => rfl
        have hp : paramOf p (q :: qs) = paramOf p qs := by simp [paramOf, hitems]
        have hl := look_other w numeric q el hq hne
        simp only [List.cons_append, List.map_cons]
        rw [find_other p _ _ hl, hp]
        refine ⟨fun h => by rw [i1 h]; rfl, ?_⟩
        intro x hx
        obtain ⟨i, m, g1, g2, g3⟩ := i2 x hx
        refine ⟨i + 1, m, by rw [g1]; rfl, g2, ?_⟩
        intro v hv
        obtain ⟨els', k1, k2⟩ := g3 v hv
        refine ⟨el :: els', ?_, ?_⟩
        · rw [List.modify_succ_cons, k1]; rfl
        · rw [hset]; exact .cons hq k2
      cases q with
      | comp l sh => exact other (by simp)
      | short l k => exact other (by simp)
      | block b => exact other (by simp)
      | params l =>
        clear other
        obtain ⟨l', rfl, hs, hok⟩ := hq
        have hsd : (Props.SpiceParam.SDir.params [] l').Ok := ⟨by simp, hok.line, hok.word⟩
        have hc := params_command l' hok
        have hfl : find p l'.items = find p l.items := Props.SpiceParam.find_pairs p _ _ hs.2.1
        have hp : paramOf p (.params l :: qs) = (find p l.items).or (paramOf p qs) := by
          simp only [paramOf, List.flatMap_cons, Props.ParamLine.find_append, Part.items]
        have unf : findParam p (((.item (.prim l'.text) :: els) ++ rest).map asElem) =
            (match named p (findIter l'.text) with
            | some m => .ok (some (0, m))
            | none => (match findParam p ((els ++ rest).map asElem) with | .error x => .error x | .ok r => .ok (r.map (fun q => (q.1 + 1, q.2))))) := by
          simp only [List.cons_append, List.map_cons, asElem]
          rw [findParam]
          simp only [look]
          rw [hc]
          simp only [if_true]
          cases named p (findIter l'.text) <;> rfl
        rw [hp, unf]
        cases hf : find p l.items with
        | none =>
          have hn : named p (findIter l'.text) = none := by
            have := Props.SpiceParam.findIter_indented [] l' hsd
            simp only [List.nil_append] at this
            rw [this]
            exact Props.SpiceParam.named_none p _ _ (by rw [hfl, hf])
          rw [hn]
          simp only [Option.none_or]
          refine ⟨fun h => by rw [i1 h]; rfl, ?_⟩
          intro x hx
          obtain ⟨i, m, g1, g2, g3⟩ := i2 x hx
          refine ⟨i + 1, m, by rw [g1]; rfl, g2, ?_⟩
          intro v hv
          obtain ⟨els', k1, k2⟩ := g3 v hv
          refine ⟨.item (.prim l'.text) :: els', ?_, ?_⟩
          · rw [List.cons_append, List.modify_succ_cons, k1]; rfl
          · simp only [setDefined, hf, Option.isSome_none, Bool.false_eq_true, if_false]
            exact .cons ⟨l', rfl, hs, hok⟩ k2
        | some y =>
          simp only [Option.some_or, reduceCtorEq, false_implies, true_and]
          intro x hx
          have hv0 : Spec.ParamLine.Value "0".toList := .inr (.inr ⟨"0".toList, [], by decide, by decide, by unfold Spec.ParamLine.NumChar; decide, by simp⟩)
          obtain ⟨m, _, hm, _, _⟩ := Props.SpiceParam.replace_line [] l' hsd p "0".toList y hv0 (by rw [hfl, hf])
          have hval : m.value = y := by
            obtain ⟨_, h2⟩ := Props.SpiceParam.find_param p [.params [] l'] (by simpa using hsd)
            obtain ⟨pre, ind, L, post, m', e1, e2, e3, e4, e5, _⟩ := h2 y (by simp [Props.SpiceParam.valueOf, Props.SpiceParam.SDir.items, hfl, hf])
            cases pre with
            | nil =>
              simp only [List.nil_append, List.cons.injEq, Props.SpiceParam.SDir.params.injEq] at e1
              obtain ⟨⟨rfl, rfl⟩, _⟩ := e1
              rw [hm] at e4
              simp only [Option.some.injEq] at e4
              rw [e4]; exact e5
            | cons a pre => simp at e1
          simp only [List.nil_append] at hm
          rw [hm]
          refine ⟨0, m, rfl, by rw [hval]; simpa using hx, ?_⟩
          intro v hv
          obtain ⟨m', l'', hm', hr, ht'⟩ := Props.SpiceParam.replace_line [] l' hsd p v y hv.value (by rw [hfl, hf])
          simp only [List.nil_append] at hm' ht'
          rw [hm] at hm'
          simp only [Option.some.injEq] at hm'
          subst hm'
          obtain ⟨r1, r2⟩ := Lemmas.ParamSave.replaced_params l' l'' p v y hok (by rw [hfl, hf]) hv hr
          refine ⟨.item (.prim l''.text) :: els, ?_, ?_⟩
          · simp only [List.cons_append, List.modify_zero_cons, setLine]
            rw [ht']
          · simp only [setDefined, hf, Option.isSome_some, if_true]
            refine .cons ⟨l'', rfl, ⟨r2.1.trans hs.1, r2.2.1.trans ?_, r2.2.2.trans hs.2.2⟩, r1⟩ ht
            exact assign_pairs p v _ _ hs.2.1

theorem find_closing (p e : Str) (he : kindOf e = some .closing) : findParam p ([El.item (.prim e)].map asElem) = .ok none := by
  obtain ⟨cmd, h1, h2⟩ := not_param he (by decide)
  have := find_other p (.prim e) [] (.inr ⟨e, cmd, rfl, h1, h2⟩)
  exact this

theorem get_param_rel (p e : Str) (he : kindOf e = some .closing) (qs : List Part) (els : List El) (h : List.Forall₂ (Rel w numeric) qs els) :
    getParameter p (els ++ [.item (.prim e)]) = paramOf p qs := by
  obtain ⟨h1, h2⟩ := find_rel w numeric p _ (find_closing p e he) qs els h
  unfold getParameter
  cases hp : paramOf p qs with
  | none => rw [h1 hp]
  | some x =>
    obtain ⟨i, m, g1, g2, _⟩ := h2 x hp
    rw [g1]
    simp only [g2]

theorem param_rel (p v e : Str) (hv : ParamSet p v) (he : kindOf e = some .closing) (qs : List Part) (els : List El) (h : List.Forall₂ (Rel w numeric) qs els) :
    ∃ els', setParameter p v (els ++ [.item (.prim e)]) = some (els' ++ [.item (.prim e)]) ∧ List.Forall₂ (Rel w numeric) (setParamOf p v qs) els' := by
  obtain ⟨h1, h2⟩ := find_rel w numeric p _ (find_closing p e he) qs els h
  unfold setParameter setParamOf
  cases hp : paramOf p qs with
  | some x =>
    obtain ⟨i, m, g1, g2, g3⟩ := h2 x hp
    obtain ⟨els', k1, k2⟩ := g3 v hv.fits
    rw [g1]
    exact ⟨els', by simp only [k1], by simpa using k2⟩
  | none =>
    rw [h1 hp]
    obtain ⟨n1, n2⟩ := Lemmas.ParamSave.newParam_ok p v hv
    refine ⟨els.take (els.length - 1) ++ .item (.prim (newParam p v).text) :: els.drop (els.length - 1), ?_, ?_⟩
    · simp only [List.length_append, List.length_singleton, Option.some.injEq]
      rw [show els.length + 1 - 2 = els.length - 1 by omega, List.take_append_of_le_length (by omega), List.drop_append_of_le_length (by omega), n2]
      simp
    · simp only [Option.isSome_none, Bool.false_eq_true, if_false]
      have hlen := h.length_eq
      rw [hlen]
      exact List.rel_append (List.forall₂_take _ h) (.cons ⟨newParam p v, rfl, ⟨rfl, rfl, rfl⟩, n1⟩ (List.forall₂_drop _ h))

theorem settable_insert (r v : Str) (l : Spec.ParamLine.Line) (a b : List Part) (h : Settable w.word r v (a ++ b)) : Settable w.word r v (a ++ .params l :: b) := by
  induction a with
  | nil => exact h
  | cons q a ih =>
    cases q with
    | comp l' sh => simp only [List.cons_append, Settable] at h ⊢; exact h.imp id (fun g => ⟨g.1, ih g.2⟩)
    | short l' k => simp only [List.cons_append, Settable] at h ⊢; exact ⟨h.1, ih h.2⟩
    | params l' => simp only [List.cons_append, Settable] at h ⊢; exact ih h
    | block b' => simp only [List.cons_append, Settable] at h ⊢; exact ih h

theorem settable_param (r v p x : Str) (ps : List Part) (h : Settable w.word r v ps) : Settable w.word r v (setParamOf p x ps) := by
  unfold setParamOf
  split
  · rename_i hs
    clear hs
    induction ps with
    | nil => exact h
    | cons q ps ih =>
      cases q with
      | comp l sh => simp only [setDefined, Settable] at h ⊢; exact h.imp id (fun g => ⟨g.1, ih g.2⟩)
      | short l k => simp only [setDefined, Settable] at h ⊢; exact ⟨h.1, ih h.2⟩
      | params l =>
        simp only [setDefined, Settable] at h ⊢
        split
        · exact h
        · exact ih h
      | block b => simp only [setDefined, Settable] at h ⊢; exact ih h
  · apply settable_insert
    rw [List.take_append_drop]; exact h

theorem entry_param (p v : Str) (ps : List Part) : (setParamOf p v ps).filterMap Part.entry = ps.filterMap Part.entry := by
  unfold setParamOf
  split
  · rename_i hs
    clear hs
    induction ps with
    | nil => rfl
    | cons q ps ih =>
      cases q with
      | params l =>
        simp only [setDefined]
        split
        · rfl
        · simp only [List.filterMap_cons, ih]
      | comp l sh => simp only [setDefined, List.filterMap_cons, ih]
      | short l k => simp only [setDefined, List.filterMap_cons, ih]
      | block b => simp only [setDefined, List.filterMap_cons, ih]
  · rw [List.filterMap_append, List.filterMap_cons]
    simp only [Part.entry]
    rw [← List.filterMap_append, List.take_append_drop]

theorem first_param (r p v : Str) (ps : List Part) : first r (setParamOf p v ps) = first r ps := by
  unfold first; rw [entry_param]

theorem items_set (r v : Str) (ps : List Part) : (setFirst r v ps).flatMap Part.items = ps.flatMap Part.items := by
  induction ps with
  | nil => rfl
  | cons q ps ih =>
    cases q with
    | comp l sh =>
      simp only [setFirst]
      split
      · rfl
      · simp only [List.flatMap_cons, ih]
    | short l k => simp only [setFirst, List.flatMap_cons, ih]
    | params l => simp only [setFirst, List.flatMap_cons, ih]
    | block b => simp only [setFirst, List.flatMap_cons, ih]

theorem param_set (p r v : Str) (ps : List Part) : paramOf p (setFirst r v ps) = paramOf p ps := by
  unfold paramOf; rw [items_set]

theorem items_defined (p v : Str) (ps : List Part) (h : (paramOf p ps).isSome) : (setDefined p v ps).flatMap Part.items = assign p v (ps.flatMap Part.items) := by
  have app : ∀ a b : List Spec.ParamLine.Item, assign p v (a ++ b) = if (find p a).isSome then assign p v a ++ b else a ++ assign p v b := by
    intro a b
    induction a with
    | nil => simp [find]
    | cons i a ih =>
      simp only [List.cons_append, assign, find]
      by_cases hs : Spec.ParamLine.Same i.name p
      · simp [hs]
      · simp only [hs, if_false, ih]
        split <;> simp_all
  induction ps with
  | nil => simp [paramOf, find] at h
  | cons q ps ih =>
    have hp : paramOf p (q :: ps) = (find p q.items).or (paramOf p ps) := by
      simp only [paramOf, List.flatMap_cons, Props.ParamLine.find_append]
    rw [hp] at h
    cases q with
    | params l =>
      simp only [setDefined, List.flatMap_cons]
      have app := app l.items (ps.flatMap Part.items)
      show _ = assign p v (l.items ++ ps.flatMap Part.items)
      have h : ((find p l.items).or (paramOf p ps)).isSome = true := h
      by_cases hf : (find p l.items).isSome
      · rw [if_pos hf] at app ⊢; rw [app]; rfl
      · rw [if_neg hf] at app ⊢
        rw [List.flatMap_cons, ih, app]
        · rfl
        · rw [Option.not_isSome_iff_eq_none] at hf
          rw [hf] at h; simpa using h
    | comp l sh => simp only [setDefined, List.flatMap_cons, Part.items, List.nil_append]; exact ih (by simpa [Part.items, find] using h)
    | short l k => simp only [setDefined, List.flatMap_cons, Part.items, List.nil_append]; exact ih (by simpa [Part.items, find] using h)
    | block b => simp only [setDefined, List.flatMap_cons, Part.items, List.nil_append]; exact ih (by simpa [Part.items, find] using h)

theorem param_param (q p v : Str) (ps : List Part) : paramOf q (setParamOf p v ps) = if upper p = upper q then some v else paramOf q ps := by
  unfold setParamOf
  cases hp : paramOf p ps with
  | some x =>
    simp only [Option.isSome_some, if_true]
    unfold paramOf at hp ⊢
    rw [items_defined p v ps (by unfold paramOf; rw [hp]; rfl), Props.ParamLine.find_assign]
    by_cases hs : Spec.ParamLine.Same q p
    · rw [if_pos hs, if_pos (show upper p = upper q from hs.symm), Props.ParamLine.find_same p q hs, hp]; rfl
    · rw [if_neg hs, if_neg (fun e => hs e.symm)]
  | none =>
    simp only [Option.isSome_none, Bool.false_eq_true, if_false]
    have split : ∀ n, paramOf q ps = (paramOf q (ps.take n)).or (paramOf q (ps.drop n)) := by
      intro n
      conv_lhs => rw [← List.take_append_drop n ps]
      simp only [paramOf, List.flatMap_append, Props.ParamLine.find_append]
    have e : paramOf q (ps.take (ps.length - 1) ++ .params (newParam p v) :: ps.drop (ps.length - 1)) =
        (paramOf q (ps.take (ps.length - 1))).or ((find q (newParam p v).items).or (paramOf q (ps.drop (ps.length - 1)))) := by
      simp only [paramOf, List.flatMap_append, List.flatMap_cons, Props.ParamLine.find_append, Part.items]
    rw [e]
    by_cases hs : upper p = upper q
    · have hq : paramOf q ps = none := by
        rw [← hp]; exact Props.ParamLine.find_same p q hs.symm _
      have h0 := split (ps.length - 1)
      rw [hq] at h0
      have h1 : paramOf q (ps.take (ps.length - 1)) = none := by
        cases hz : paramOf q (ps.take (ps.length - 1)) with
        | none => rfl
        | some z => rw [hz] at h0; simp at h0
      rw [if_pos hs, h1]
      have : Spec.ParamLine.Same p q := hs
      simp [newParam, find, this]
    · have : ¬ Spec.ParamLine.Same p q := hs
      rw [if_neg hs, split (ps.length - 1)]
      simp [newParam, find, this]

theorem param_same (r : Str) : ∀ qs ps : List Part, List.Forall₂ Part.Same qs ps → paramOf r ps = paramOf r qs := by
  intro qs
  induction qs with
  | nil => intro ps h; cases h; rfl
  | cons q qs ih =>
    intro ps h
    cases h with
    | cons a b =>
      rename_i p ps
      have hc : ∀ x : Part, ∀ xs, paramOf r (x :: xs) = (find r x.items).or (paramOf r xs) := by
        intro x xs; simp only [paramOf, List.flatMap_cons, Props.ParamLine.find_append]
      rw [hc, hc, ih ps b]
      congr 1
      cases q with
      | params l => cases p with
        | params l' => exact Props.SpiceParam.find_pairs r _ _ a.2.1
        | comp l' sh => simp [Part.Same] at a
        | short l' k => simp [Part.Same] at a
        | block b => simp [Part.Same] at a
      | comp l sh => cases p with
        | comp l' sh' => rfl
        | params l' => simp [Part.Same] at a
        | short l' k => simp [Part.Same] at a
        | block b => simp [Part.Same] at a
      | short l k => simp only [Part.Same] at a; rw [a]
      | block b => simp only [Part.Same] at a; rw [a]

/-! ### Histories -/

theorem settable_set (r v r' v' : Str) : ∀ ps : List Part, Settable w.word r v ps → Settable w.word r v (setFirst r' v' ps) := by
  intro ps
  induction ps with
  | nil => exact fun h => h
  | cons p ps ih =>
    intro h
    cases p with
    | comp l sh =>
      simp only [Settable] at h
      simp only [setFirst]
      have hsame : SameButValue l { l with value := v' } := ⟨rfl, rfl, rfl, rfl, rfl, rfl, rfl⟩
      split
      · simp only [Settable]
        rw [same_reference hsame]
        exact h.imp (fun g => ⟨g.1, fits_same w hsame g.2⟩) id
      · simp only [Settable]
        exact h.imp id (fun g => ⟨g.1, ih g.2⟩)
    | short l k => simp only [Settable] at h ⊢; exact ⟨h.1, ih h.2⟩
    | params l => simp only [Settable] at h ⊢; exact ih h
    | block b => simp only [Settable] at h ⊢; exact ih h

theorem settable_edited (r v : Str) (op : Op) (ps : List Part) (h : Settable w.word r v ps) : Settable w.word r v (edited ps op) := by
  cases op with
  | set r' v' => exact settable_set w r v r' v' ps h
  | param p x => exact settable_param w r v p x ps h
  | reopen => exact h

theorem settable_all (r v : Str) : ∀ (ops : List Op) (ps : List Part), Settable w.word r v ps → Settable w.word r v (ops.foldl edited ps) := by
  intro ops
  induction ops with
  | nil => exact fun _ h => h
  | cons o os ih => exact fun ps h => ih _ (settable_edited w r v o ps h)

variable (e : Str) (he : kindOf e = some .closing) (hl : OneLine e) (ht : Spec.NetSave.Tidy e)

include he hl ht in
theorem run_rel : ∀ (ops : List Op) (qs : List Part) (els : List El), List.Forall₂ (Rel w numeric) qs els → Legal w.word ops qs →
    ∃ els', run w numeric shown included (els ++ [.item (.prim e)]) ops = some (els' ++ [.item (.prim e)]) ∧ List.Forall₂ (Rel w numeric) (ops.foldl edited qs) els' := by
  intro ops
  induction ops with
  | nil => intro qs els h _; exact ⟨els, rfl, h⟩
  | cons op ops ih =>
    intro qs els h hs
    have hsave : save w numeric shown included [.item (.prim e)] = some e := by
      simp only [save, writeEl, writeItem]
      rw [ht]; simp
    have hleg : Legal w.word ops (edited qs op) :=
      ⟨fun r v hm => settable_edited w r v op qs (hs.values r v (by simp [hm])), fun p v hm => hs.params p v (by simp [hm])⟩
    have main : ∃ els1, step w numeric shown included (els ++ [.item (.prim e)]) op = some (els1 ++ [.item (.prim e)]) ∧ List.Forall₂ (Rel w numeric) (edited qs op) els1 := by
      cases op with
      | set r v => exact set_rel w numeric r v qs els [.item (.prim e)] h (hs.values r v (by simp))
      | param p v => exact param_rel w numeric p v e (hs.params p v (by simp)) he qs els h
      | reopen =>
        obtain ⟨ps, g1, g2, g3⟩ := save_rel w numeric shown included [.item (.prim e)] e hsave qs els h
        obtain ⟨els1, o1, o2⟩ := open_rel w numeric shown ps g2 e he hl
        have et : (linesOf (ps.map Part.toBlock)).flatten ++ e = fileText ps e := by simp [fileText]
        refine ⟨els1, ?_, rels_same w numeric qs ps els1 g1 o2⟩
        simp only [step, g3, Option.bind_some]
        rw [et, o1]
    obtain ⟨els1, m1, m2⟩ := main
    obtain ⟨els', k1, k2⟩ := ih _ els1 m2 hleg
    refine ⟨els', ?_, k2⟩
    simp only [run, m1, Option.bind_some]
    exact k1

include he hl ht in
/-- C103: whatever values and parameters are set, and however often the netlist is saved and opened again in between, the netlist that is saved at the end is the one
that was opened with these values in place of the old ones: same lines, same order (with one line for each parameter the netlist did not define), the components and parameter lines the same but for the
number of blanks between their pieces. -/
theorem C103_saved (ps : List Part) (hok : ∀ p ∈ ps, p.Ok w.word (NameOk numeric)) (ops : List Op) (hs : Legal w.word ops ps) :
    ∃ els els' ps', openText w numeric shown (fileText ps e) = some els ∧ run w numeric shown included els ops = some els' ∧
      save w numeric shown included els' = some (fileText ps' e) ∧ List.Forall₂ Part.Same (ops.foldl edited ps) ps' ∧ ∀ p ∈ ps', p.Ok w.word (NameOk numeric) := by
  obtain ⟨els, h1, h2⟩ := open_rel w numeric shown ps hok e he hl
  obtain ⟨els', h3, h4⟩ := run_rel w numeric shown included e he hl ht ops ps els h2 hs
  have hsave : save w numeric shown included [.item (.prim e)] = some e := by
    simp only [save, writeEl, writeItem]
    rw [ht]; simp
  obtain ⟨ps', g1, g2, g3⟩ := save_rel w numeric shown included [.item (.prim e)] e hsave _ els' h4
  exact ⟨_, _, ps', h1, h3, by rw [g3]; simp [fileText], g1, g2⟩

theorem first_setFirst (r v r' : Str) : ∀ ps : List Part, Settable w.word r v ps → first r' (setFirst r v ps) = if upper r = upper r' then some v else first r' ps := by
  intro ps
  induction ps with
  | nil => intro h; exact absurd h (by simp [Settable])
  | cons p ps ih =>
    intro h
    have skip : ∀ (q : Part) (qs : List Part), first r' (q :: qs) = (match q.entry with
        | some x => if upper x.1 = upper r' then some x.2 else first r' qs
        | none => first r' qs) := by
      intro q qs
      cases hq : q.entry with
      | none => simp only [first, List.filterMap_cons, hq]
      | some x =>
        simp only [first, List.filterMap_cons, hq, List.find?_cons]
        by_cases c : upper x.1 = upper r'
        · rw [if_pos c]; simp [c]
        · rw [if_neg c]
          have : (upper x.1 == upper r') = false := by simpa using c
          simp only [this]
    cases p with
    | comp l sh =>
      simp only [Settable] at h
      simp only [setFirst]
      rcases h with ⟨e, _⟩ | ⟨e, h⟩
      · rw [if_pos e, skip, skip]
        simp only [Part.entry]
        have : ({ l with value := v } : Line).reference = l.reference := rfl
        rw [this, e]
        split <;> simp_all
      · rw [if_neg e, skip, skip, ih h]
        simp only [Part.entry]
        by_cases c : upper l.reference = upper r'
        · rw [if_pos c, if_pos c, if_neg]
          intro hc; exact e (c.trans hc.symm)
        · rw [if_neg c, if_neg c]
    | short l k =>
      simp only [Settable] at h
      simp only [setFirst]
      rw [skip, skip, ih h.2]
      simp only [Part.entry]
      by_cases c : upper l.reference = upper r'
      · rw [if_pos c, if_pos c, if_neg]
        intro hc; exact h.1 (c.trans hc.symm)
      · rw [if_neg c, if_neg c]
    | params l =>
      simp only [Settable] at h
      simp only [setFirst]
      rw [skip, skip, ih h]
      simp only [Part.entry]
    | block b =>
      simp only [Settable] at h
      simp only [setFirst]
      rw [skip, skip, ih h]
      simp only [Part.entry]

theorem first_same (r : Str) : ∀ qs ps : List Part, List.Forall₂ Part.Same qs ps → first r ps = first r qs := by
  intro qs
  induction qs with
  | nil => intro ps h; cases h; rfl
  | cons q qs ih =>
    intro ps h
    cases h with
    | cons a b =>
      rename_i p ps
      have ih := ih ps b
      have he : p.entry = q.entry := by
        cases q with
        | comp l sh => cases p with
          | comp l' sh' =>
            obtain ⟨h1, h2, rfl⟩ := a
            simp only [Part.entry, same_reference h1, h2]
          | short l' k => simp [Part.Same] at a
          | params l' => simp [Part.Same] at a
          | block b => simp [Part.Same] at a
        | short l k => simp only [Part.Same] at a; rw [a]
        | params l => cases p with
          | params l' => rfl
          | comp l' sh => simp [Part.Same] at a
          | short l' k => simp [Part.Same] at a
          | block b => simp [Part.Same] at a
        | block b => simp only [Part.Same] at a; rw [a]
      unfold first at ih ⊢
      simp only [List.filterMap_cons, he]
      cases q.entry with
      | none => exact ih
      | some x =>
        simp only [List.find?_cons]
        split
        · rfl
        · exact ih

theorem first_edited (r : Str) : ∀ (ops : List Op) (ps : List Part), Legal w.word ops ps →
    first r (ops.foldl edited ps) = (lastSet r ops).or (first r ps) := by
  intro ops
  induction ops using List.reverseRecOn with
  | nil => intro ps _; rfl
  | append_singleton ops op ih =>
    intro ps hs
    have ih := ih ps ⟨fun r' v' hm => hs.values r' v' (by simp [hm]), fun r' v' hm => hs.params r' v' (by simp [hm])⟩
    rw [List.foldl_append]
    simp only [List.foldl_cons, List.foldl_nil]
    unfold lastSet at ih ⊢
    rw [List.reverse_append, List.reverse_singleton, List.singleton_append, List.findSome?_cons]
    cases op with
    | set r1 v =>
      have hset := settable_all w r1 v ops ps (hs.values r1 v (by simp))
      simp only [edited, sets]
      rw [first_setFirst w r1 v r _ hset, ih]
      by_cases c : upper r1 = upper r
      · simp [c]
      · simp [c]
    | param p v => simp only [edited, sets]; rw [first_param]; exact ih
    | reopen => simp only [edited, sets]; exact ih

theorem param_edited (p : Str) : ∀ (ops : List Op) (ps : List Part), paramOf p (ops.foldl edited ps) = (lastParam p ops).or (paramOf p ps) := by
  intro ops
  induction ops using List.reverseRecOn with
  | nil => intro ps; rfl
  | append_singleton ops op ih =>
    intro ps
    have ih := ih ps
    rw [List.foldl_append]
    simp only [List.foldl_cons, List.foldl_nil]
    unfold lastParam at ih ⊢
    rw [List.reverse_append, List.reverse_singleton, List.singleton_append, List.findSome?_cons]
    cases op with
    | set r1 v => simp only [edited, setsParam]; rw [param_set]; exact ih
    | param p1 v =>
      simp only [edited, setsParam]
      rw [param_param, ih]
      by_cases c : upper p1 = upper p
      · simp [c]
      · simp [c]
    | reopen => simp only [edited, setsParam]; exact ih

include he hl ht in
/-- C103: asked for the value of a component or a parameter, the editor gives the value that was set last, of one that was not set the value of
the file; and so does an editor that opens the saved file. -/
theorem C103_values (ps : List Part) (hok : ∀ p ∈ ps, p.Ok w.word (NameOk numeric)) (ops : List Op) (hs : Legal w.word ops ps) :
    ∃ els els' els'' text, openText w numeric shown (fileText ps e) = some els ∧ run w numeric shown included els ops = some els' ∧
      save w numeric shown included els' = some text ∧ openText w numeric shown text = some els'' ∧
      ∀ r, getValue r els' = (lastSet r ops).or (first r ps) ∧ getValue r els'' = (lastSet r ops).or (first r ps) ∧
        getParameter r els' = (lastParam r ops).or (paramOf r ps) ∧ getParameter r els'' = (lastParam r ops).or (paramOf r ps) := by
  obtain ⟨els, h1, h2⟩ := open_rel w numeric shown ps hok e he hl
  obtain ⟨els', h3, h4⟩ := run_rel w numeric shown included e he hl ht ops ps els h2 hs
  have hsave : save w numeric shown included [.item (.prim e)] = some e := by
    simp only [save, writeEl, writeItem]
    rw [ht]; simp
  obtain ⟨ps', g1, g2, g3⟩ := save_rel w numeric shown included [.item (.prim e)] e hsave _ els' h4
  obtain ⟨els2, o1, o2⟩ := open_rel w numeric shown ps' g2 e he hl
  refine ⟨_, _, els2 ++ [.item (.prim e)], _, h1, h3, g3, by rw [← o1]; simp [fileText], ?_⟩
  intro r
  have hr : getValue r [.item (.prim e)] = none := rfl
  rw [get_rel w numeric r _ hr _ _ h4, get_rel w numeric r _ hr _ _ o2, first_same r _ _ g1, first_edited w r ops ps hs, get_param_rel w numeric r e he _ _ h4,
    get_param_rel w numeric r e he _ _ o2, param_same r _ _ g1, param_edited]
  exact ⟨rfl, rfl, rfl, rfl⟩

include he hl ht in
/-- C103: a netlist that nobody touched is saved with the same components and values; the text may differ from the file only in the number of
blanks. -/
theorem C103_untouched (ps : List Part) (hok : ∀ p ∈ ps, p.Ok w.word (NameOk numeric)) (n : Nat) :
    ∃ els els' ps', openText w numeric shown (fileText ps e) = some els ∧ run w numeric shown included els (List.replicate n .reopen) = some els' ∧
      save w numeric shown included els' = some (fileText ps' e) ∧ List.Forall₂ Part.Same ps ps' := by
  obtain ⟨els, els', ps', h1, h2, h3, h4, _⟩ := C103_saved w numeric shown included e he hl ht ps hok (List.replicate n .reopen) (by
    constructor <;>
    · intro r v hm
      have := List.eq_of_mem_replicate hm
      simp at this)
  refine ⟨els, els', ps', h1, h2, h3, ?_⟩
  have : ∀ n, (List.replicate n Op.reopen).foldl edited ps = ps := by
    intro n
    induction n with
    | zero => rfl
    | succ n ih => rw [List.replicate_succ, List.foldl_cons]; exact ih
  rw [this] at h4
  exact h4

end Props.EditSave

namespace Props.EditSave
open Model.EditSave Spec.EditSave Spec.NetBlocks Spec.LogicalLine
open Props.CompLine (ascii digits str exR exR_ok saved isText)
open Props.CompShort (exE exE_ok)
open Props.Params (NameOk)

/-! ### An example -/

def exX : Spec.ParamLine.Line := ⟨".param".toList, [⟨" ".toList, "x".toList, "=".toList, "2".toList⟩], " ; gain\n".toList⟩

def exParts : List Part := [.block (.line "* demo\n".toList), .short exE (.rest 2), .comp exR .passive, .params exX, .block (.line ".tran 1m\n".toList)]

example : fileText exParts ".end\n".toList = "* demo\nE§1 out 0 value={2*V(a, b)}\nR§1 in n-1 4.7k tc=1 temp=25 ; load\n.param x=2 ; gain\n.tran 1m\n.end\n".toList := by decide +kernel

theorem ex_unb (t : Str) (h1 : t.head? ≠ some '*') (h2 : ∀ c ∈ t, c ≠ '\n' ∧ c ≠ '\r' ∧ c ≠ ';') : Unbroken t := Props.NewComp.smooth_unbroken h2 h1

theorem exParts_ok : ∀ p ∈ exParts, p.Ok ascii.word (NameOk digits) := by
  intro p hp
  simp only [exParts, List.mem_cons, List.not_mem_nil, or_false] at hp
  rcases hp with rfl | rfl | rfl | rfl | rfl
  · have hk : kindOf "* demo\n".toList = some .text := by decide +kernel
    refine ⟨.inl hk, .inl hk, by simp only [Spec.NetSave.Block.includes, hk]; rfl, ?_, ?_⟩
    · intro s hs
      simp only [Block.lines, List.mem_singleton] at hs
      subst hs
      exact ⟨⟨"* demo".toList, by decide, .inl ⟨" demo".toList, by decide, by decide⟩⟩, by decide, by decide⟩
    · intro s hs
      simp only [Block.line.injEq] at hs
      rw [← hs]
      exact ⟨by rw [hk]; simp, by decide +kernel⟩
  · refine ⟨exE_ok.1, exE_ok.2.1, by decide +kernel, .inr rfl, ?_⟩
    exact ⟨⟨exE.text, rfl, .inr (.inl ⟨ex_unb _ (by decide +kernel) (by decide +kernel), by decide +kernel⟩)⟩, by decide +kernel, by decide +kernel⟩
  · refine ⟨exR_ok.1, exR_ok.2.2, exR_ok.2.1, ⟨?_, ?_, ?_, ?_, ?_⟩⟩ <;> unfold Quiet <;> decide +kernel
  · refine ⟨⟨by decide +kernel, ?_, ?_, ?_, ?_⟩, ?_, by unfold Spec.NetSave.Tidy; decide +kernel, ?_, " ; gain".toList, by decide +kernel, by decide +kernel,
      .inr ⟨" ".toList, " gain".toList, by decide, by unfold Quiet; decide⟩⟩
    · intro i hi
      simp only [exX, List.mem_singleton] at hi
      subst hi
      refine ⟨by decide, by unfold Spec.ParamLine.Blank; decide, ⟨by decide, by unfold Spec.ParamLine.NameChar; decide⟩, .inl ⟨[], [], rfl, by simp [Spec.ParamLine.Blank], by simp [Spec.ParamLine.Blank]⟩, ?_⟩
      exact .inr (.inr ⟨"2".toList, [], by decide, by decide, by unfold Spec.ParamLine.NumChar; decide, by simp⟩)
    · intro i hi
      simp only [exX, List.head?_cons, Option.some.injEq] at hi
      subst hi
      rintro ⟨c, h1, h2⟩
      have : c = 'x' := by simpa using h1.symm
      subst this
      revert h2; unfold Spec.ParamLine.NumChar; decide
    · show ∀ c ∈ " ; gain\n".toList, ¬ Spec.ParamLine.NumChar c ∧ c ≠ '{' ∧ c ≠ '"'
      unfold Spec.ParamLine.NumChar; decide
    · intro c hc
      have : c = ' ' := by simpa [exX] using hc.symm
      subst this; unfold Spec.ParamLine.NameChar; decide
    · intro c hc
      have : c = ' ' := by simpa [exX, Spec.ParamLine.Item.text] using hc.symm
      exact .inl this
    · intro i hi
      simp only [exX, List.mem_singleton] at hi
      subst hi
      exact ⟨show ∀ c ∈ " ".toList ++ "=".toList, c ≠ '\n' ∧ c ≠ '\r' by decide, ⟨.inr (.inr ⟨"2".toList, [], by decide, by decide, by unfold Spec.ParamLine.NumChar; decide, by simp⟩),
        by unfold Quiet; decide, show ∀ c ∈ "2".toList, c ≠ '\n' ∧ c ≠ '\r' by decide⟩⟩
  · have hk : kindOf ".tran 1m\n".toList = some .other := by decide +kernel
    refine ⟨.inr (.inr (.inr hk)), .inr (.inr (.inl ⟨hk, by unfold Spec.NetSave.Tidy; decide +kernel⟩)), by simp only [Spec.NetSave.Block.includes, hk]; rfl, ?_, ?_⟩
    · intro s hs
      simp only [Block.lines, List.mem_singleton] at hs
      subst hs
      exact ⟨⟨".tran 1m".toList, by decide, .inr (.inl ⟨ex_unb _ (by decide +kernel) (by decide +kernel), by decide +kernel⟩)⟩, by decide, by decide⟩
    · intro s hs
      simp only [Block.line.injEq] at hs
      rw [← hs]
      exact ⟨by rw [hk]; simp, by decide +kernel⟩

def exOps : List Op := [.set "r1".toList "10k".toList, .param "X".toList "{2*pi}".toList, .reopen, .set "R1".toList "{x + 1}".toList, .param "gain".toList "5k".toList]

theorem exOps_ok : Legal ascii.word exOps exParts := by
  constructor
  · intro r v h
    simp only [exOps, List.mem_cons, List.not_mem_nil, or_false, Op.set.injEq, reduceCtorEq, false_or] at h
    rcases h with ⟨rfl, rfl⟩ | ⟨rfl, rfl⟩
    · refine ⟨by decide +kernel, .inl ⟨by decide +kernel, ⟨.plain _ (by decide) (by decide +kernel), by unfold Quiet; decide +kernel, by decide +kernel⟩⟩⟩
    · refine ⟨by decide +kernel, .inl ⟨by decide +kernel, ⟨.braces "x + 1".toList (by decide +kernel), by unfold Quiet; decide +kernel, by decide +kernel⟩⟩⟩
  · intro p v h
    have nn : ∀ (p : Str) (d : Char), p.head? = some d → ¬ Spec.ParamLine.NumChar d → ¬ Spec.ParamLine.NumberLike p := by
      rintro p d h1 h2 ⟨c, h3, h4⟩
      rw [h1] at h3
      injection h3 with h3
      subst h3
      exact h2 h4
    simp only [exOps, List.mem_cons, List.not_mem_nil, or_false, Op.param.injEq, reduceCtorEq, false_or] at h
    rcases h with ⟨rfl, rfl⟩ | ⟨rfl, rfl⟩
    · exact ⟨⟨by decide, by unfold Spec.ParamLine.NameChar; decide⟩, nn _ 'X' (by decide) (by unfold Spec.ParamLine.NumChar; decide),
        ⟨.inl ⟨"2*pi".toList, by decide, by decide⟩, by unfold Quiet; decide, by decide⟩⟩
    · exact ⟨⟨by decide, by unfold Spec.ParamLine.NameChar; decide⟩, nn _ 'g' (by decide) (by unfold Spec.ParamLine.NumChar; decide),
        ⟨.inr (.inr ⟨"5".toList, "k".toList, by decide, by decide, by unfold Spec.ParamLine.NumChar; decide, by decide⟩), by unfold Quiet; decide, by decide⟩⟩

example : ∃ els els' els'' text, openText ascii digits str (fileText exParts ".end\n".toList) = some els ∧ run ascii digits str (fun _ => none) els exOps = some els' ∧
    save ascii digits str (fun _ => none) els' = some text ∧ openText ascii digits str text = some els'' ∧
    getValue "R1".toList els' = some "{x + 1}".toList ∧ getValue "r1".toList els'' = some "{x + 1}".toList ∧ getValue "E1".toList els'' = some "value={2*V(a, b)}".toList ∧
    getValue "R2".toList els'' = none ∧ getParameter "x".toList els'' = some "{2*pi}".toList ∧ getParameter "GAIN".toList els'' = some "5k".toList := by
  obtain ⟨els, els', els'', text, h1, h2, h3, h4, h5⟩ := C103_values ascii digits str (fun _ => none) ".end\n".toList (by decide +kernel)
    ⟨⟨".end".toList, by decide, .inr (.inl ⟨ex_unb _ (by decide +kernel) (by decide +kernel), by decide +kernel⟩)⟩, by decide, by decide⟩ (by unfold Spec.NetSave.Tidy; decide +kernel)
    exParts exParts_ok exOps exOps_ok
  refine ⟨els, els', els'', text, h1, h2, h3, h4, ?_⟩
  rw [(h5 _).1, (h5 "r1".toList).2.1, (h5 "E1".toList).2.1, (h5 "R2".toList).2.1, (h5 "x".toList).2.2.2, (h5 "GAIN".toList).2.2.2]
  refine ⟨?_, ?_, ?_, ?_, ?_, ?_⟩ <;> decide +kernel

/-- C103 (limit): the value is not checked. The name of a model with a blank in it is written, and the saved line is then read as one more node and another model. -/
theorem C103_limit_blank :
    isText (saved "Q1 c b e npn\n" (fun a => { a with value := some "my npn".toList })) "Q1 c b e my npn\n" = true ∧
    (Model.CompLine.reset ascii digits str "Q1 c b e my npn\n".toList).toOption.map (fun a => (a.ports, a.value)) =
      some (["c".toList, "b".toList, "e".toList, "my".toList], some "npn".toList) := by
  refine ⟨?_, ?_⟩ <;> decide +kernel

end Props.EditSave
