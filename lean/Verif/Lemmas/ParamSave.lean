import Verif.Spec.EditSave
import Verif.Props.SpiceParam
import Verif.Props.NewComp
import Mathlib.Data.List.Forall2

/-! Lines with parameters that are saved and read again. -/
namespace Lemmas.ParamSave
open Spec.EditSave Spec.LogicalLine
open Spec.ParamLine (Item Line Value Name NumberLike find assign NameChar)
open Model.PyStr (isSpace upper strip rstrip)
open Props.SpiceParam (SDir Replaced)
open Props.NewComp (nest_append nest_flat smooth_unbroken)

abbrev Str := List Char

/-- Characters that open and close nothing and end no line. -/
def Calm (c : Char) : Prop := c ≠ '{' ∧ c ≠ '(' ∧ c ≠ '[' ∧ c ≠ '}' ∧ c ≠ ')' ∧ c ≠ ']' ∧ c ≠ '"'
instance (c : Char) : Decidable (Calm c) := inferInstanceAs (Decidable (_ ∧ _))

theorem nestFrom_calm (n : Nest) (s : Str) (h : ∀ c ∈ s, Calm c) : nestFrom n s = some n := by
  induction s with
  | nil => rfl
  | cons c s ih =>
    obtain ⟨h1, h2, h3, h4, h5, h6, h7⟩ := h c (by simp)
    have e : next n c = some n := by simp [next, h1, h2, h3, h4, h5, h6, h7]
    simp only [nestFrom, e]
    exact ih (fun d hd => h d (by simp [hd]))

theorem space_calm {c : Char} (h : isSpace c = true) : Calm c ∧ c ≠ ';' := by
  refine ⟨⟨?_, ?_, ?_, ?_, ?_, ?_, ?_⟩, ?_⟩ <;> (rintro rfl; revert h; decide)

theorem name_calm {c : Char} (h : NameChar c) : (Calm c ∧ c ≠ ';') ∧ c ≠ '\n' ∧ c ≠ '\r' := by
  refine ⟨⟨⟨?_, ?_, ?_, ?_, ?_, ?_, ?_⟩, ?_⟩, ?_, ?_⟩ <;> (rintro rfl; revert h; unfold NameChar; decide)

theorem sep_calm {s : Str} (h : Spec.ParamLine.Sep s) : ∀ c ∈ s, Calm c ∧ c ≠ ';' := by
  intro c hc
  rcases h with ⟨a, b, rfl, ha, hb⟩ | ⟨hb, _⟩
  · rcases List.mem_append.1 hc with m | m
    · exact space_calm (ha c m)
    · rcases List.mem_cons.1 m with rfl | m
      · decide
      · exact space_calm (hb c m)
  · exact space_calm (hb c hc)

theorem word_calm {kw : Str} (h : upper kw = ".PARAM".toList) : ∀ c ∈ kw, (Calm c ∧ c ≠ ';') ∧ c ≠ '\n' ∧ c ≠ '\r' := by
  obtain ⟨w, rfl, hw, _⟩ := Lemmas.ParamRegex.keyword_shape kw h
  intro c hc
  have key : ∀ d ∈ w, ∀ x ∈ ";\n\r{([])}\"".toList, d ≠ x := by
    intro d hd x hx e
    have h1 := hw d hd
    have bad : ∀ x ∈ ";\n\r{([])}\"".toList, Model.ParamRegex.wordChar x = false := by decide
    rw [e, bad x hx] at h1
    simp at h1
  rcases List.mem_cons.1 hc with rfl | hc
  · decide
  · have k := key c hc
    refine ⟨⟨⟨?_, ?_, ?_, ?_, ?_, ?_, ?_⟩, ?_⟩, ?_, ?_⟩ <;> (apply k; decide)

theorem item_quiet {i : Item} (h : i.Ok) (hq : Quiet i.value) : nest i.text = some outside ∧ ';' ∉ i.text := by
  obtain ⟨_, h1, h2, h3, _⟩ := h
  constructor
  · unfold Item.text
    have a1 : nest (i.gap ++ i.name ++ i.sep) = some outside := by
      apply nestFrom_calm
      intro c hc
      rcases List.mem_append.1 hc with hc | hc
      · rcases List.mem_append.1 hc with hc | hc
        · exact (space_calm (h1 c hc)).1
        · exact (name_calm (h2.2 c hc)).1.1
      · exact (sep_calm h3 c hc).1
    rw [nest_append _ _ a1]; exact hq.1
  · intro hc
    simp only [Item.text, List.mem_append, or_assoc] at hc
    rcases hc with hc | hc | hc | hc
    · exact (space_calm (h1 _ hc)).2 rfl
    · exact (name_calm (h2.2 _ hc)).1.2 rfl
    · exact (sep_calm h3 _ hc).2 rfl
    · exact hq.2 hc

theorem item_oneLine {i : Item} (h : i.Ok) (hg : ∀ c ∈ i.gap ++ i.sep, c ≠ '\n' ∧ c ≠ '\r') (hv : ∀ c ∈ i.value, c ≠ '\n' ∧ c ≠ '\r') :
    ∀ c ∈ i.text, c ≠ '\n' ∧ c ≠ '\r' := by
  intro c hc
  simp only [Item.text, List.mem_append, or_assoc] at hc
  rcases hc with hc | hc | hc | hc
  · exact hg c (by simp [hc])
  · exact (name_calm (h.2.2.1.2 c hc)).2
  · exact hg c (by simp [hc])
  · exact hv c hc

/-- A line with parameters takes one line. -/
theorem params_oneLine (l : Line) (h : ParamsOk l) : OneLine l.text := by
  obtain ⟨h1, _, _, h4, t, h5, h6, h7⟩ := h
  obtain ⟨w, hk, _, _⟩ := Lemmas.ParamRegex.keyword_shape l.kw h1.keyword
  have head : l.text.head? = some '.' := by simp [Line.text, hk]
  have hkw := word_calm h1.keyword
  let a := l.kw ++ l.items.flatMap Item.text
  have ht : l.text = (a ++ t) ++ ['\n'] := by simp [Line.text, a, h5]
  have na : nest a = some outside := by
    rw [nest_append _ _ (nestFrom_calm _ _ (fun c hc => (hkw c hc).1.1))]
    exact nest_flat _ _ (fun i hi => (item_quiet (h1.items i hi) (h4 i hi).2.quiet).1)
  have sa : ∀ c ∈ a, c ≠ '\n' ∧ c ≠ '\r' ∧ c ≠ ';' := by
    intro c hc
    rcases List.mem_append.1 hc with hc | hc
    · have := hkw c hc; exact ⟨this.2.1, this.2.2, this.1.2⟩
    · obtain ⟨i, hi, hc⟩ := List.mem_flatMap.1 hc
      have g := item_oneLine (h1.items i hi) (h4 i hi).1 (h4 i hi).2.oneLine c hc
      refine ⟨g.1, g.2, ?_⟩
      rintro rfl
      exact (item_quiet (h1.items i hi) (h4 i hi).2.quiet).2 hc
  have ah : ∀ b : Str, (a ++ b).head? ≠ some '*' := by intro b; simp [a, hk]
  refine ⟨⟨a ++ t, ht, .inr ?_⟩, by rw [head]; decide, by rw [head]; decide⟩
  rcases h7 with hq | ⟨b, x, rfl, hq⟩
  · left
    refine ⟨smooth_unbroken ?_ (ah t), by rw [nest_append _ _ na]; exact hq.1⟩
    intro c hc
    rcases List.mem_append.1 hc with hc | hc
    · exact sa c hc
    · exact ⟨(h6 c hc).1, (h6 c hc).2, by rintro rfl; exact hq.2 hc⟩
  · right
    refine ⟨a ++ b, x, by simp, ?_, smooth_unbroken ?_ (ah b), by rw [nest_append _ _ na]; exact hq.1⟩
    · intro hx; exact (h6 '\n' (by simp [hx])).1 rfl
    · intro c hc
      rcases List.mem_append.1 hc with hc | hc
      · exact sa c hc
      · exact ⟨(h6 c (by simp [hc])).1, (h6 c (by simp [hc])).2, by rintro rfl; exact hq.2 hc⟩

theorem rstrip_append_blanks (s b : Str) (hb : ∀ c ∈ b, isSpace c = true) : rstrip (s ++ b) = rstrip s := by
  unfold rstrip
  rw [List.reverse_append, Lemmas.PyStr.dropWhile_all _ _ _ (by simpa using hb)]

/-- The end of a line without the blanks after it. -/
theorem tail_rstrip (t : Str) (h : TailOk t) : TailOk (rstrip t) := by
  obtain ⟨s, e, hs⟩ := Props.SpiceParam.rstrip_prefix t
  have sub : ∀ c ∈ rstrip t, c ∈ t := fun c hc => by rw [e]; simp [hc]
  refine ⟨fun c hc => h.1 c (sub c hc), ?_⟩
  have cut : ∀ a b : Str, (∀ c ∈ b, isSpace c = true) → nest (a ++ b) = some outside → nest a = some outside := by
    intro a b hb hn
    unfold nest at *
    rw [Lemmas.Lines.nestFrom_append] at hn
    cases ha : nestFrom outside a with
    | none => rw [ha] at hn; simp at hn
    | some m =>
      rw [ha] at hn
      simp only [Option.bind_some] at hn
      rw [nestFrom_calm m b (fun c hc => (space_calm (hb c hc)).1)] at hn
      exact hn
  rcases h.2 with hq | ⟨a, x, ex, hq⟩
  · left
    refine ⟨cut _ s hs (by rw [← e]; exact hq.1), fun hc => hq.2 (sub _ hc)⟩
  · right
    refine ⟨a, rstrip (';' :: x) |>.tail, ?_, hq⟩
    have hv : rstrip (a ++ [';'] ++ x) = a ++ [';'] ++ rstrip x := Props.SpiceParam.rstrip_visible a x ';' (by decide)
    have hv2 : rstrip ([] ++ [';'] ++ x) = [] ++ [';'] ++ rstrip x := Props.SpiceParam.rstrip_visible [] x ';' (by decide)
    have e2 : t = a ++ [';'] ++ x := by rw [ex]; simp
    have e3 : ';' :: x = [] ++ [';'] ++ x := by simp
    rw [e2, hv, e3, hv2]
    simp

theorem tail_blank (t : Str) (h : TailOk t) : TailOk (' ' :: t) := by
  refine ⟨?_, ?_⟩
  · intro c hc
    rcases List.mem_cons.1 hc with rfl | hc
    · decide
    · exact h.1 c hc
  · rcases h.2 with hq | ⟨a, x, rfl, hq⟩
    · exact .inl ⟨hq.1, by simpa using hq.2⟩
    · exact .inr ⟨' ' :: a, x, by simp, hq.1, by simpa using hq.2⟩

/-- A line after one of its values was replaced. -/
theorem replaced_params (l l' : Line) (p v x : Str) (h : ParamsOk l) (hf : find p l.items = some x) (hv : ParamFits v) (hr : Replaced p v l l') :
    ParamsOk l' ∧ SameParams { l with items := assign p v l.items } l' := by
  obtain ⟨h1, h2, h3, h4, t, h5, h6⟩ := h
  have hne : l'.items ≠ [] := by
    intro e
    have hp := hr.pairs
    rw [e] at hp
    have hl : l.items ≠ [] := by intro e2; rw [e2] at hf; simp [find] at hf
    have := hr.layout.length_eq
    rw [e] at this
    simp only [List.length_nil] at this
    exact hl (List.length_eq_zero_iff.1 this)
  have htail : ∃ t', l'.tail = t' ++ ['\n'] ∧ TailOk t' ∧ rstrip l'.tail = t' ∧ strip l'.tail = strip l.tail := by
    have nl : ∀ c ∈ ['\n'], isSpace c = true := by decide
    have rr : ∀ s : Str, rstrip (rstrip s ++ ['\n']) = rstrip s := by
      intro s; rw [rstrip_append_blanks _ _ nl, Lemmas.CompLine.rstrip_rstrip]
    have ss : ∀ s : Str, strip (rstrip s ++ ['\n']) = strip s := by
      intro s
      obtain ⟨b, e, hb⟩ := Props.SpiceParam.rstrip_prefix s
      have a1 := Lemmas.FloatUnit.strip_blanks (a := []) (s := rstrip s) (b := ['\n']) (by simp) nl
      have a2 := Lemmas.FloatUnit.strip_blanks (a := []) (s := rstrip s) (b := b) (by simp) hb
      simp only [List.nil_append] at a1 a2
      rw [a1, ← a2, ← e]
    rcases hr.comment with e | e
    · refine ⟨rstrip t, by rw [e, h5, rstrip_append_blanks _ _ nl], tail_rstrip t h6, by rw [e, h5, rr, rstrip_append_blanks _ _ nl], by rw [e, ss]⟩
    · have e1 : ' ' :: l.tail = (' ' :: t) ++ ['\n'] := by rw [h5]; simp
      refine ⟨rstrip (' ' :: t), by rw [e, e1, rstrip_append_blanks _ _ nl], tail_rstrip _ (tail_blank t h6), by rw [e, e1, rr, rstrip_append_blanks _ _ nl], ?_⟩
      rw [e, ss]
      have := Lemmas.FloatUnit.strip_blanks (a := [' ']) (s := l.tail) (b := []) (by decide) (by simp)
      simpa using this
  obtain ⟨t', t1, t2, t3, t4⟩ := htail
  refine ⟨⟨hr.ok, ?_, ?_, ?_, t', t1, t2⟩, hr.kw, hr.pairs, t4⟩
  · rw [hr.head]; exact h2
  · unfold Spec.NetSave.Tidy
    have := Props.SpiceParam.strip_line [] l'.kw l'.items l'.tail (by simp) hr.ok.keyword hr.ok.items hne
    simp only [List.nil_append] at this
    unfold Line.text
    rw [this, t3]
    conv_rhs => rw [t1]
    simp
  · intro j hj
    constructor
    · obtain ⟨n, hn, ej⟩ := List.mem_iff_getElem.1 hj
      have hl := hr.layout.length_eq
      have g := (List.forall₂_iff_get.1 hr.layout).2 n (by omega) hn
      simp only [List.get_eq_getElem, ej] at g
      have hi := (h4 l.items[n] (List.getElem_mem _)).1
      intro c hc
      have sp : ' ' ≠ '\n' ∧ ' ' ≠ '\r' := by decide
      rcases List.mem_append.1 hc with hc | hc
      · rcases g.1 with e | e
        · rw [e] at hc; exact hi c (by simp [hc])
        · rw [e] at hc
          rcases List.mem_cons.1 hc with rfl | hc
          · exact sp
          · exact hi c (by simp [hc])
      · rcases g.2 with e | e
        · rw [e] at hc; exact hi c (by simp [hc])
        · rw [e] at hc
          rcases List.mem_append.1 hc with hc | hc
          · exact hi c (by simp [hc])
          · rw [List.mem_singleton.1 hc]; exact sp
    · have hm : (j.name, j.value) ∈ (assign p v l.items).map (fun i => (i.name, i.value)) := by
        rw [← hr.pairs]; exact List.mem_map.2 ⟨j, hj, rfl⟩
      obtain ⟨k, hk, ek⟩ := List.mem_map.1 hm
      simp only [Prod.mk.injEq] at ek
      rw [← ek.2]
      have : ∀ items : List Item, (∀ i ∈ items, ParamFits i.value) → ∀ k ∈ assign p v items, ParamFits k.value := by
        intro items
        induction items with
        | nil => intro _ k hk; simp [assign] at hk
        | cons i items ih =>
          intro hi k hk
          simp only [assign] at hk
          split at hk
          · rcases List.mem_cons.1 hk with rfl | hk
            · exact hv
            · exact hi k (by simp [hk])
          · rcases List.mem_cons.1 hk with rfl | hk
            · exact hi _ (by simp)
            · exact ih (fun i hi' => hi i (by simp [hi'])) k hk
      exact this l.items (fun i hi => (h4 i hi).2) k hk

theorem newParam_ok (p v : Str) (h : ParamSet p v) : ParamsOk (newParam p v) ∧ (newParam p v).text = Model.Netlist.paramLine p v := by
  have ht : (newParam p v).text = Model.Netlist.paramLine p v := by
    have e : "=".toList = ['='] := rfl
    have e2 : ".PARAM ".toList = ".PARAM".toList ++ " ".toList := by decide
    unfold newParam Line.text Item.text Model.Netlist.paramLine
    rw [e2, e]
    generalize "  ; Batch instruction\n".toList = T
    generalize ".PARAM".toList = K
    generalize " ".toList = B
    simp only [List.flatMap_cons, List.flatMap_nil, List.append_assoc, List.cons_append, List.nil_append, List.append_nil]
  have hn := Props.SpiceParam.newLine_ok p v h.name h.notNumber h.fits.value
  refine ⟨⟨hn.2.1, hn.2.2, ?_, ?_, "  ; Batch instruction".toList, (show "  ; Batch instruction\n".toList = "  ; Batch instruction".toList ++ ['\n'] by decide), by decide, .inr ⟨"  ".toList, " Batch instruction".toList, by decide, by unfold Quiet; decide⟩⟩, ht⟩
  · unfold Spec.NetSave.Tidy
    have := Props.SpiceParam.strip_line [] (newParam p v).kw (newParam p v).items (newParam p v).tail (by simp) hn.2.1.keyword hn.2.1.items (by simp [newParam])
    simp only [List.nil_append] at this
    unfold Line.text
    rw [this, List.append_assoc]
    congr 1
  · intro i hi
    simp only [newParam, List.mem_singleton] at hi
    subst hi
    exact ⟨show ∀ c ∈ " ".toList ++ "=".toList, c ≠ '\n' ∧ c ≠ '\r' by decide, h.fits⟩

end Lemmas.ParamSave
