import Verif.Props.QComp
import Verif.Props.AscInstr
import Verif.Model.SpiceParam
/-
C67: instructions of QSPICE schematics. C35: read-only schematic editors.
-/
namespace Props.QInstr
open Model.QComp Model.PyStr
open Model.ParamRegex (QText qualifier unqualify)
open Model.Netlist (Perm)
open Model.Updates (UpdateType)
open Spec.AscInstr (FirstWord Command)
open Spec.QschTree (HasColon)
open Model.Asc (words)

/-- A text of the sheet that selects an analysis. -/
def Simulates (t : QText) : Prop := t.comment = false ∧ Command (unqualify t.text)

theorem command_iff (s c : Str) : command s = some c ↔ ∃ w, FirstWord s w ∧ upper w = c := by
  unfold command
  constructor
  · intro h
    obtain ⟨w, hw, rfl⟩ := Option.map_eq_some_iff.1 h
    cases hl : words s with
    | nil => rw [hl] at hw; cases hw
    | cons a l =>
      rw [hl] at hw
      simp only [List.head?_cons, Option.some.injEq] at hw
      subst hw
      exact ⟨a, Props.AscInstr.first_words hl, rfl⟩
  · rintro ⟨w, hw, rfl⟩
    obtain ⟨l, hl⟩ := Props.AscInstr.words_first hw
    rw [hl]; rfl

theorem command_unique (s c : Str) (h : command s = some c) : c ∈ unique ↔ Command s := by
  have hm : c ∈ unique ↔ ∃ a ∈ Spec.Directive.analyses, c = a.toList := by simp [unique, Spec.Directive.analyses]
  rw [hm]
  constructor
  · intro hc
    obtain ⟨w, hw, rfl⟩ := (command_iff s c).1 h
    exact ⟨w, hw, hc⟩
  · rintro ⟨w, hw, hc⟩
    have : command s = some (upper w) := (command_iff s _).2 ⟨w, hw, rfl⟩
    rw [h] at this
    rw [Option.some.inj this]; exact hc

theorem command_strip (s : Str) : command (strip s) = command s := by unfold command; rw [Props.AscInstr.words_strip]

theorem replaceFirst_cases (i : Str) : ∀ ts : List QText, (∀ t ∈ ts, t.comment = false → ∃ w, FirstWord (unqualify t.text) w) →
    (∃ (a b : List QText) (t : QText), ts = a ++ t :: b ∧ (∀ u ∈ a, ¬ Simulates u) ∧ Simulates t ∧
      replaceFirst i ts = some (some (a ++ { t with text := qualifier ++ i } :: b, unqualify t.text))) ∨
    ((∀ u ∈ ts, ¬ Simulates u) ∧ replaceFirst i ts = some none) := by
  intro ts
  induction ts with
  | nil => intro _; exact .inr ⟨by simp, rfl⟩
  | cons t ts ih =>
    intro h
    have pass : ¬ Simulates t → replaceFirst i (t :: ts) = (replaceFirst i ts).map (Option.map (fun p => (t :: p.1, p.2))) →
        (∃ (a b : List QText) (u : QText), t :: ts = a ++ u :: b ∧ (∀ u ∈ a, ¬ Simulates u) ∧ Simulates u ∧
          replaceFirst i (t :: ts) = some (some (a ++ { u with text := qualifier ++ i } :: b, unqualify u.text))) ∨
        ((∀ u ∈ t :: ts, ¬ Simulates u) ∧ replaceFirst i (t :: ts) = some none) := by
      intro hs e
      rcases ih (fun u hu => h u (by simp [hu])) with ⟨a, b, u, e1, e2, e3, e4⟩ | ⟨e1, e2⟩
      · left
        refine ⟨t :: a, b, u, by rw [e1]; rfl, ?_, e3, by rw [e, e4]; rfl⟩
        intro x hx
        rcases List.mem_cons.1 hx with rfl | hx
        exacts [hs, e2 x hx]
      · right
        refine ⟨?_, by rw [e, e2]; rfl⟩
        intro x hx
        rcases List.mem_cons.1 hx with rfl | hx
        exacts [hs, e1 x hx]
    cases hc : t.comment with
    | true =>
      apply pass
      · intro hs; rw [hs.1] at hc; cases hc
      · rw [replaceFirst, if_pos hc]
    | false =>
      obtain ⟨w, hw⟩ := h t (by simp) hc
      have hcmd : command (unqualify t.text) = some (upper w) := (command_iff _ _).2 ⟨w, hw, rfl⟩
      by_cases hu : upper w ∈ unique
      · left
        refine ⟨[], ts, t, rfl, by simp, ⟨hc, (command_unique _ _ hcmd).1 hu⟩, ?_⟩
        rw [replaceFirst, if_neg (by simp [hc]), hcmd]
        simp only [hu, if_true, List.nil_append]
      · apply pass
        · intro hs; exact hu ((command_unique _ _ hcmd).2 hs.2)
        · rw [replaceFirst, if_neg (by simp [hc]), hcmd]
          simp only [hu, if_false]

/-- Instructions a new text can hold. -/
def Plain (i : Str) : Prop := '"' ∉ i ∧ ¬ HasColon i

theorem append_lit (x y : Int) (ed : Ed) (i : Str) (h : Plain i) : append x y ed i = ({ ed with texts := ed.texts ++ [⟨false, qualifier ++ i⟩] }, none) := by
  have hq : ':' ∉ qualifier ∧ '"' ∉ qualifier := by decide +kernel
  obtain ⟨t, e1, e2⟩ := Props.QComp.newTag_lit "1".toList (by apply Props.Qsch.token_word; decide +kernel) (by decide +kernel) x y (qualifier ++ i)
    (by
      intro hm
      rcases List.mem_append.1 hm with hm | hm
      exacts [hq.2 hm, h.1 hm])
    (fun hm => h.2 (Props.QComp.colon_pre qualifier i hq.1 hm))
  unfold append
  rw [e1]
  simp only [e2]

theorem plain_strip (i : Str) (h : Plain i) : Plain (strip i) := by
  have : strip i <:+: i := by
    unfold strip
    have h1 : lstrip i <:+ i := List.dropWhile_suffix _
    have h2 : ∀ t : Str, rstrip t <+: t := by
      intro t
      unfold rstrip
      rw [← List.reverse_suffix, List.reverse_reverse]
      exact List.dropWhile_suffix _
    exact (h2 _).isInfix.trans h1.isInfix
  exact ⟨fun hm => h.1 (this.subset hm), fun hm => h.2 (hm.trans this)⟩

/-- C67: adding an analysis command replaces the first one of the sheet and records both; when there is none it is added as a text of its own. -/
theorem C67_add_command (x y : Int) (ed : Ed) (i : Str) (hi : Command i) (hp : ed.perm ≠ .deny) (hpl : Plain i)
    (hd : ∀ t ∈ ed.texts, t.comment = false → ∃ w, FirstWord (unqualify t.text) w) :
    (∃ (a b : List QText) (t : QText), ed.texts = a ++ t :: b ∧ (∀ u ∈ a, ¬ Simulates u) ∧ Simulates t ∧
      addInstruction x y ed i = ({ ed with texts := a ++ { t with text := qualifier ++ strip i } :: b, calls := ed.calls ++ [("INSTRUCTION".toList, some (unqualify t.text), .deleteInstruction), ("INSTRUCTION".toList, some (strip i), .addInstruction)], canvas := true }, none)) ∨
    ((∀ u ∈ ed.texts, ¬ Simulates u) ∧
      addInstruction x y ed i = ({ ed with texts := ed.texts ++ [⟨false, qualifier ++ strip i⟩] }, none)) := by
  obtain ⟨w, hw, hc⟩ := hi
  have hcmd : command (strip i) = some (upper w) := by rw [command_strip]; exact (command_iff i _).2 ⟨w, hw, rfl⟩
  have hu : upper w ∈ unique := (command_unique i _ ((command_iff i _).2 ⟨w, hw, rfl⟩)).2 ⟨w, hw, hc⟩
  have e : addInstruction x y ed i = (match replaceFirst (strip i) ed.texts with
      | none => (ed, some .index)
      | some (some (ts, old)) =>
        ((({ ed with texts := ts } : Ed).record "INSTRUCTION".toList (some old) .deleteInstruction).record "INSTRUCTION".toList (some (strip i)) .addInstruction, none)
      | some none => append x y ed (strip i)) := by
    unfold addInstruction
    simp only [if_neg hp, hcmd, if_pos hu]
    rfl
  rw [e]
  rcases replaceFirst_cases (strip i) ed.texts hd with ⟨a, b, t, e1, e2, e3, e4⟩ | ⟨e1, e2⟩
  · left
    refine ⟨a, b, t, e1, e2, e3, ?_⟩
    rw [e4]
    simp [Ed.record]
  · right
    refine ⟨e1, ?_⟩
    rw [e2]
    exact append_lit x y ed _ (plain_strip i hpl)

/-- C67, limit: the first analysis command of a sheet is added without being recorded: when nothing else was edited, saving to the same file writes nothing
and the command is lost. -/
theorem C67_first_command_not_saved (x y : Int) (ed ed' : Ed) (i : Str) (hi : Command i) (hp : ed.perm ≠ .deny) (hpl : Plain i)
    (hd : ∀ t ∈ ed.texts, t.comment = false → ∃ w, FirstWord (unqualify t.text) w) (hs : ∀ u ∈ ed.texts, ¬ Simulates u)
    (hu : updated ed = false) (h : addInstruction x y ed i = (ed', none)) :
    ed'.texts ≠ ed.texts ∧ ed'.calls = ed.calls ∧ writes ed' true = false := by
  rcases C67_add_command x y ed i hi hp hpl hd with ⟨a, b, t, e1, _, e3, _⟩ | ⟨_, e⟩
  · exact absurd e3 (hs t (by rw [e1]; simp))
  · rw [e] at h
    simp only [Prod.mk.injEq, and_true] at h
    subst h
    refine ⟨by simp, rfl, ?_⟩
    unfold writes
    have : updated { ed with texts := ed.texts ++ [⟨false, qualifier ++ strip i⟩] } = updated ed := rfl
    rw [this, hu]; rfl

/-- C67: any other instruction is added as a text of its own, and recorded. -/
theorem C67_add_other (x y : Int) (ed : Ed) (i w : Str) (hw : FirstWord i w) (hi : ¬ Command i) (hq : ¬ ".PARAM".toList <+: upper w) (hp : ed.perm ≠ .deny) (hpl : Plain i) :
    addInstruction x y ed i = ({ ed with texts := ed.texts ++ [⟨false, qualifier ++ strip i⟩], calls := ed.calls ++ [("INSTRUCTION".toList, some (strip i), .addInstruction)], canvas := true }, none) := by
  have hcmd : command (strip i) = some (upper w) := by rw [command_strip]; exact (command_iff i _).2 ⟨w, hw, rfl⟩
  have hu : upper w ∉ unique := fun h => hi ((command_unique i _ ((command_iff i _).2 ⟨w, hw, rfl⟩)).1 h)
  have hq' : ".PARAM".toList.isPrefixOf (upper w) = false := by
    rw [← Bool.not_eq_true, List.isPrefixOf_iff_prefix]; exact hq
  unfold addInstruction
  simp only [if_neg hp, hcmd, if_neg hu, hq', Bool.false_eq_true, if_false]
  rw [append_lit x y _ _ (plain_strip i hpl)]
  rfl

/-- C67: parameters and empty instructions are refused, and nothing changes. -/
theorem C67_add_refused (x y : Int) (ed : Ed) (i : Str) (hp : ed.perm ≠ .deny) :
    ((∃ w, FirstWord i w ∧ ".PARAM".toList <+: upper w) → addInstruction x y ed i = (ed, some .param)) ∧
    ((∀ w, ¬ FirstWord i w) → addInstruction x y ed i = (ed, some .index)) := by
  constructor
  · rintro ⟨w, hw, hq⟩
    have hcmd : command (strip i) = some (upper w) := by rw [command_strip]; exact (command_iff i _).2 ⟨w, hw, rfl⟩
    have hu : upper w ∉ unique := by
      intro h
      have key : ∀ u ∈ unique, ¬ ".PARAM".toList <+: u := by decide +kernel
      exact key _ h hq
    have hq' : ".PARAM".toList.isPrefixOf (upper w) = true := List.isPrefixOf_iff_prefix.2 hq
    unfold addInstruction
    simp only [if_neg hp, hcmd, if_neg hu, hq', if_true]
  · intro h
    have hcmd : command (strip i) = none := by
      rw [command_strip]
      cases hc : command i with
      | none => rfl
      | some c =>
        obtain ⟨w, hw, _⟩ := (command_iff i c).1 hc
        exact absurd hw (h w)
    unfold addInstruction
    simp only [if_neg hp, hcmd]

theorem removeFirst_cases (i : Str) : ∀ ts : List QText,
    (∃ (a b : List QText) (t : QText), ts = a ++ t :: b ∧ t.comment = false ∧ contains i t.text = true ∧ (∀ u ∈ a, u.comment = true ∨ contains i u.text = false) ∧
      removeFirst i ts = some (a ++ b)) ∨
    ((∀ u ∈ ts, u.comment = true ∨ contains i u.text = false) ∧ removeFirst i ts = none) := by
  intro ts
  induction ts with
  | nil => exact .inr ⟨by simp, rfl⟩
  | cons t ts ih =>
    have pass : (t.comment = true ∨ contains i t.text = false) → removeFirst i (t :: ts) = (removeFirst i ts).map (t :: ·) →
        (∃ (a b : List QText) (u : QText), t :: ts = a ++ u :: b ∧ u.comment = false ∧ contains i u.text = true ∧ (∀ u ∈ a, u.comment = true ∨ contains i u.text = false) ∧
          removeFirst i (t :: ts) = some (a ++ b)) ∨
        ((∀ u ∈ t :: ts, u.comment = true ∨ contains i u.text = false) ∧ removeFirst i (t :: ts) = none) := by
      intro hs e
      rcases ih with ⟨a, b, u, e1, e2, e3, e4, e5⟩ | ⟨e1, e2⟩
      · left
        refine ⟨t :: a, b, u, by rw [e1]; rfl, e2, e3, ?_, by rw [e, e5]; rfl⟩
        intro x hx
        rcases List.mem_cons.1 hx with rfl | hx
        exacts [hs, e4 x hx]
      · right
        refine ⟨?_, by rw [e, e2]; rfl⟩
        intro x hx
        rcases List.mem_cons.1 hx with rfl | hx
        exacts [hs, e1 x hx]
    by_cases hc : t.comment = true
    · exact pass (.inl hc) (by rw [removeFirst, if_pos hc])
    · by_cases hi : contains i t.text = true
      · exact .inl ⟨[], ts, t, rfl, by simpa using hc, hi, by simp, by rw [removeFirst, if_neg hc, if_pos hi]; rfl⟩
      · exact pass (.inr (by simpa using hi)) (by rw [removeFirst, if_neg hc, if_neg hi])

/-- C67: remove_instruction removes the first text that is no comment and contains the instruction, records it and returns True; when there is none it returns False
and changes nothing. -/
theorem C67_remove (ed : Ed) (i : Str) (hp : ed.perm ≠ .deny) :
    (∃ (a b : List QText) (t : QText), ed.texts = a ++ t :: b ∧ t.comment = false ∧ contains i t.text = true ∧ (∀ u ∈ a, u.comment = true ∨ contains i u.text = false) ∧
      removeInstruction ed i = ({ ed with texts := a ++ b, calls := ed.calls ++ [("INSTRUCTION".toList, some i, .deleteInstruction)], canvas := true }, .ok true)) ∨
    ((∀ u ∈ ed.texts, u.comment = true ∨ contains i u.text = false) ∧ removeInstruction ed i = (ed, .ok false)) := by
  rcases removeFirst_cases i ed.texts with ⟨a, b, t, e1, e2, e3, e4, e5⟩ | ⟨e1, e2⟩
  · left
    refine ⟨a, b, t, e1, e2, e3, e4, ?_⟩
    unfold removeInstruction
    rw [if_neg hp, e5]; rfl
  · right
    refine ⟨e1, ?_⟩
    unfold removeInstruction
    rw [if_neg hp, e2]

theorem record_fold (out : List QText) : ∀ e : Ed, out.foldl (fun (e : Ed) t => e.record "INSTRUCTION".toList (some (unqualify t.text)) .deleteInstruction) e =
    { e with calls := e.calls ++ out.map (fun t => ("INSTRUCTION".toList, some (unqualify t.text), .deleteInstruction)), canvas := e.canvas || !out.isEmpty } := by
  induction out with
  | nil => intro e; simp
  | cons t out ih => intro e; rw [List.foldl_cons, ih]; simp [Ed.record]

/-- C67: remove_Xinstruction removes exactly the texts that are no comments and match, and records each of them. -/
theorem C67_removeX (ed : Ed) (m : Str → Bool) (hp : ed.perm ≠ .deny) :
    (removeX ed m).1 = { ed with texts := ed.texts.filter (fun t => t.comment || !m (unqualify t.text)), calls := ed.calls ++ (ed.texts.filter (fun t => !t.comment && m (unqualify t.text))).map (fun t => ("INSTRUCTION".toList, some (unqualify t.text), .deleteInstruction)), canvas := ed.canvas || !(ed.texts.filter (fun t => !t.comment && m (unqualify t.text))).isEmpty } ∧
    ((removeX ed m).2.toOption = some true ↔ ∃ t ∈ ed.texts, t.comment = false ∧ m (unqualify t.text) = true) ∧ (removeX ed m).2.toOption ≠ none := by
  unfold removeX
  rw [if_neg hp]
  simp only
  rw [record_fold]
  refine ⟨?_, ?_, by simp [Except.toOption]⟩
  · congr 1
    apply List.filter_congr
    intro t _
    cases t.comment <;> simp
  · have : ∀ l : List QText, (Except.ok (!l.isEmpty) : Except Err Bool).toOption = some true ↔ ∃ t, t ∈ l := by
      intro l
      cases l with
      | nil => simp [Except.toOption]
      | cons a l => simp [Except.toOption]
    rw [this]
    simp only [List.mem_filter, Bool.and_eq_true, Bool.not_eq_true']

/-- C67, limits: an empty text on the sheet makes adding a command fail; a colon with a blank loses the instruction (though it is recorded);
a quotation mark raises, after the instruction was recorded. -/
theorem C67_limits :
    (addInstruction 0 0 ⟨.inform, [], [⟨false, "ï»¿".toList⟩], [], false⟩ ".tran 1".toList).2 = some .index ∧
    (addInstruction 0 0 ⟨.inform, [], [], [], false⟩ ".meas a: b".toList) = (⟨.inform, [], [], [("INSTRUCTION".toList, some ".meas a: b".toList, .addInstruction)], true⟩, none) ∧
    (addInstruction 0 0 ⟨.inform, [], [], [], false⟩ ".inc \"a b.lib\" x\"".toList) =
      (⟨.inform, [], [], [("INSTRUCTION".toList, some ".inc \"a b.lib\" x\"".toList, .addInstruction)], true⟩, some .parse) := by
  decide +kernel

/-- The hypotheses are met: a sheet with a comment, a command and a parameter. -/
theorem C67_sample :
    let ed : Ed := ⟨.inform, [], [⟨true, ".tran 1".toList⟩, ⟨false, "ï»¿.param a=1".toList⟩, ⟨false, "ï»¿.TRAN 5m".toList⟩], [], false⟩
    (addInstruction 3 4 ed " .ac dec 10 1 1k\n".toList).1.texts = [⟨true, ".tran 1".toList⟩, ⟨false, "ï»¿.param a=1".toList⟩, ⟨false, "ï»¿.ac dec 10 1 1k".toList⟩] ∧
    (addInstruction 3 4 ed ".save all".toList).1.texts = ed.texts ++ [⟨false, "ï»¿.save all".toList⟩] ∧
    (removeInstruction ed ".tran".toList).1 = ed ∧ (removeInstruction ed ".TRAN".toList).1.texts = [⟨true, ".tran 1".toList⟩, ⟨false, "ï»¿.param a=1".toList⟩] := by
  decide +kernel

/-! ### C35: read-only schematics -/

/-- C35: with permission Deny every editing call of a QSPICE schematic raises, and nothing is changed or recorded. -/
theorem C35_qsch_denied (ed : Ed) (hp : ed.perm = .deny) (x y : Int) (ref k v i : Str) (w : Option Str) (m : Str → Bool) :
    (setParameter x y ed ref k w).1 = ed ∧ (setParameter x y ed ref k w).2 ≠ none ∧
    (setModel ed ref v).1 = ed ∧ (setModel ed ref v).2 ≠ none ∧
    setComponentValue ed ref v = (ed, some .readOnly) ∧ removeComponent ed ref = (ed, some .permission) ∧
    addInstruction x y ed i = (ed, some .permission) ∧ removeInstruction ed i = (ed, .error .permission) ∧
    removeX ed m = (ed, .error .permission) ∧ setGlobal ed k v = (ed, some .permission) := by
  refine ⟨?_, ?_, ?_, ?_, by rw [setComponentValue, if_pos hp], by rw [removeComponent, if_pos hp], by rw [addInstruction, if_pos hp],
    by rw [removeInstruction, if_pos hp], by rw [removeX, if_pos hp], by rw [setGlobal, if_pos hp]⟩
  all_goals first
    | (unfold setParameter; cases ed.get ref <;> simp [hp])
    | (unfold setModel; cases ed.get ref <;> simp [hp])

/-- C35: set_parameter of a netlist raises too, with a value and without. -/
theorem C35_parameter_denied (ed : Model.Netlist.Ed) (hp : ed.perm = .deny) (p v : Str) :
    Model.SpiceParam.setParam ed p v = .error .value ∧ Model.SpiceParam.delParam ed p = .error .value := by
  rw [Model.SpiceParam.setParam, Model.SpiceParam.delParam, if_pos hp, if_pos hp]
  exact ⟨rfl, rfl⟩

open Model.SchComp (Dict value_ setComponentParameters) in
/-- C35: with permission Deny, setting values and parameters of the components of an LTspice schematic raises, and nothing is changed or recorded. -/
theorem C35_asc_denied (norm : Str → Str) (ed : Model.SchComp.Ed) (hp : ed.perm = .deny) (ref v : Str) (kvs : Dict (Option Str)) :
    (setComponentParameters norm ed ref kvs).1 = ed ∧ (setComponentParameters norm ed ref kvs).2 ≠ none ∧
    (Model.SchComp.setComponentValue ed ref v).1 = ed ∧ (Model.SchComp.setComponentValue ed ref v).2 ≠ none := by
  refine ⟨?_, ?_, ?_, ?_⟩
  · unfold setComponentParameters; cases ed.get ref <;> simp [hp]
  · unfold setComponentParameters; cases ed.get ref <;> simp [hp]
  · unfold Model.SchComp.setComponentValue
    cases hg : ed.get ref with
    | none => rfl
    | some c => by_cases h : value_ ∈ c.map Prod.fst <;> simp [h, hp]
  · unfold Model.SchComp.setComponentValue
    cases hg : ed.get ref with
    | none => simp
    | some c => by_cases h : value_ ∈ c.map Prod.fst <;> simp [h, hp]

/-- C35, limit: remove_component and set_element_model change a read-only LTspice schematic (add_instruction, remove_instruction and
remove_Xinstruction do not look at the permission at all: Model.AscInstr). -/
theorem C35_asc_bypasses (ed : Model.SchComp.Ed) (_hp : ed.perm = .deny) (ref model : Str) (c : Model.SchComp.Dict Model.SchComp.Attr) (hc : ed.get ref = some c) :
    (∃ ed', (Model.SchComp.removeComponent ed ref).toOption = some ed' ∧ ed'.calls = ed.calls ++ [(ref, some [], .deleteComponent)]) ∧
    (∃ ed' c', (Model.SchComp.setElementModel ed ref model).toOption = some ed' ∧ ed'.get ref = some c' ∧ c'.lookup "_symbol".toList = some (.text model) ∧
      ed'.calls = ed.calls) := by
  constructor
  · exact ⟨_, by rw [Model.SchComp.removeComponent, hc]; rfl, rfl⟩
  · refine ⟨{ ed with comps := Model.SchComp.put ref (Model.SchComp.put "_symbol".toList (.text model) c) ed.comps }, Model.SchComp.put "_symbol".toList (.text model) c, by rw [Model.SchComp.setElementModel, hc]; rfl, ?_, ?_, rfl⟩
    · exact Props.SchComp.lookup_put ref ref _ _ |>.trans (if_pos rfl)
    · exact Props.SchComp.lookup_put _ _ _ _ |>.trans (if_pos rfl)

/-- The hypotheses are met. -/
theorem C35_sample : (setParameter 0 0 ⟨.deny, [("R1".toList, ⟨[.text "R1".toList, .text "1k".toList], "1k".toList, true⟩)], [], [], false⟩ "R1".toList "tc".toList (some "1".toList)).2 =
    some .permission := by
  decide +kernel

end Props.QInstr
