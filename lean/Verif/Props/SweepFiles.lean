import Verif.Spec.SweepFiles
import Verif.Props.EditSave
import Verif.Props.Stepper
import Verif.Props.Runner
import Verif.Props.Cleanup
import Mathlib.Data.List.Nodup

/-! C104: the netlist files of a stepped simulation. -/
namespace Props.SweepFiles
open Model.SweepFiles Model.EditSave Spec.EditSave Spec.SweepFiles
open Model.CompLine (WordClass)
open Model.Params (PV)
open Model.PyStr (upper)
open Model.Stepper (Dim handle upd)
open Spec.NetBlocks
open Props.Params (NameOk)
open Props.EditSave (Rel)
open Props.Stepper (ReusableSweeps)

abbrev Str := List Char

variable (w : WordClass) (numeric : Str → Bool) (shown : PV → Str) (included : Str → Option Str) (circuit : Str) (name : Nat → Str)

theorem alike_refl (p : Part) : Alike p p := by
  cases p with
  | comp l sh => exact ⟨⟨rfl, rfl, rfl, rfl, rfl, rfl, rfl⟩, rfl⟩
  | short l k => rfl
  | params l => exact ⟨rfl, rfl, rfl⟩
  | block b => rfl

theorem grown_refl : ∀ ps : List Part, Grown ps ps
  | [] => .nil
  | p :: ps => .cons (alike_refl p) (grown_refl ps)

theorem grown_set (r v : Str) : ∀ ps qs : List Part, Grown ps qs → Grown ps (setFirst r v qs) := by
  intro ps qs h
  induction h with
  | nil => exact .nil
  | new hl _ ih => exact .new hl ih
  | cons a b ih =>
    rename_i p q ps qs
    cases q with
    | comp l sh =>
      simp only [setFirst]
      split
      · refine .cons ?_ b
        cases p with
        | comp l0 sh0 => exact ⟨a.1, a.2⟩
        | short l0 k => simp [Alike] at a
        | params l => simp [Alike] at a
        | block b => simp [Alike] at a
      · exact .cons a ih
    | short l k => exact .cons a ih
    | params l => exact .cons a ih
    | block b => exact .cons a ih

theorem assign_names (p v : Str) (a : List Spec.ParamLine.Item) : (Spec.ParamLine.assign p v a).map (·.name) = a.map (·.name) := by
  induction a with
  | nil => rfl
  | cons i a ih =>
    simp only [Spec.ParamLine.assign]
    split
    · rfl
    · simp [ih]

theorem grown_defined (r v : Str) : ∀ ps qs : List Part, Grown ps qs → Grown ps (setDefined r v qs) := by
  intro ps qs h
  induction h with
  | nil => exact .nil
  | new hl hg ih =>
    simp only [setDefined]
    split
    · refine .new ?_ hg
      have := congrArg List.length (assign_names r v ‹Spec.ParamLine.Line›.items)
      simp only [List.length_map] at this
      rw [this]; exact hl
    · exact .new hl ih
  | cons a b ih =>
    rename_i p q ps qs
    cases q with
    | params l =>
      simp only [setDefined]
      split
      · refine .cons ?_ b
        cases p with
        | params l0 => exact ⟨a.1, (assign_names r v l.items).trans a.2.1, a.2.2⟩
        | short l0 k => simp [Alike] at a
        | comp l0 sh => simp [Alike] at a
        | block b => simp [Alike] at a
      · exact .cons a ih
    | short l k => exact .cons a ih
    | comp l sh => exact .cons a ih
    | block b => exact .cons a ih

theorem grown_insert (l : Spec.ParamLine.Line) (hl : l.items.length = 1) (ps qs : List Part) (h : Grown ps qs) : ∀ n, Grown ps (qs.take n ++ .params l :: qs.drop n) := by
  induction h with
  | nil => intro n; simp; exact .new hl .nil
  | new hl' hg ih =>
    intro n
    cases n with
    | zero => exact .new hl (.new hl' hg)
    | succ n => exact .new hl' (ih n)
  | cons a b ih =>
    intro n
    cases n with
    | zero => exact .new hl (.cons a b)
    | succ n => exact .cons a (ih n)

theorem grown_edited (op : Op) (ps qs : List Part) (h : Grown ps qs) : Grown ps (edited qs op) := by
  cases op with
  | set r v => exact grown_set r v ps qs h
  | param p v =>
    simp only [edited, setParamOf]
    split
    · exact grown_defined p v ps qs h
    · exact grown_insert _ rfl ps qs h _
  | reopen => exact h

theorem alike_same {p q q' : Part} (h : Alike p q) (h' : Part.Same q q') : Alike p q' := by
  cases q with
  | comp l sh =>
    cases q' with
    | comp l' sh' =>
      obtain ⟨g1, g2, rfl⟩ := h'
      cases p with
      | comp l0 sh0 => exact ⟨Props.EditSave.same_trans h.1 g1, h.2⟩
      | short l0 k => simp [Alike] at h
      | params l => simp [Alike] at h
      | block b => simp [Alike] at h
    | short l' k => simp [Part.Same] at h'
    | params l' => simp [Part.Same] at h'
    | block b => simp [Part.Same] at h'
  | short l k => simp only [Part.Same] at h'; rw [h']; exact h
  | params l =>
    cases q' with
    | params l' =>
      cases p with
      | params l0 =>
        refine ⟨h'.1.trans h.1, ?_, h'.2.2.trans h.2.2⟩
        have := congrArg (List.map Prod.fst) h'.2.1
        simp only [pairs, List.map_map] at this
        exact Eq.trans this h.2.1
      | short l0 k => simp [Alike] at h
      | comp l sh => simp [Alike] at h
      | block b => simp [Alike] at h
    | short l' k => simp [Part.Same] at h'
    | comp l' sh => simp [Part.Same] at h'
    | block b => simp [Part.Same] at h'
  | block b => simp only [Part.Same] at h'; rw [h']; exact h

theorem grown_same : ∀ ps qs qs' : List Part, Grown ps qs → List.Forall₂ Part.Same qs qs' → Grown ps qs' := by
  intro ps qs qs' h
  induction h generalizing qs' with
  | nil => intro h'; cases h'; exact .nil
  | cons a b ih => intro h'; cases h' with | cons c d => exact .cons (alike_same a c) (ih _ d)
  | new hl hg ih =>
    intro h'
    cases h' with
    | cons c d =>
      rename_i q' qs'
      cases q' with
      | params l' =>
        refine .new ?_ (ih _ d)
        have := congrArg List.length c.2.1
        simp only [pairs, List.length_map] at this
        rw [this]; exact hl
      | short l' k => simp [Part.Same] at c
      | comp l' sh => simp [Part.Same] at c
      | block b => simp [Part.Same] at c

/-- The edit made by a sweep. -/
def opOf (k : Model.Stepper.What) (r v : Str) : Op :=
  match k with
  | .param => .param r v
  | _ => .set r v

theorem given_edit (k k' : Model.Stepper.What) (r r' v : Str) (qs : List Part) (h : Sweepable w.word k r v qs) :
    (SameKind k k' → given k' r' (edited qs (opOf k r v)) = if upper r = upper r' then some v else given k' r' qs) ∧
    (¬ SameKind k k' → given k' r' (edited qs (opOf k r v)) = given k' r' qs) := by
  unfold SameKind
  cases k <;> cases k' <;> simp only [opOf, edited, given, reduceCtorEq, iff_self, iff_true, iff_false, not_true, not_false_iff, false_implies, true_implies, and_true, true_and] <;>
    first
    | exact Props.EditSave.param_param _ _ _ _
    | exact Props.EditSave.first_setFirst w _ _ _ _ h
    | exact Props.EditSave.param_set _ _ _ _
    | exact Props.EditSave.first_param _ _ _ _

theorem sweepable_edited (k : Model.Stepper.What) (r v : Str) (op : Op) (qs : List Part) (h : Sweepable w.word k r v qs) : Sweepable w.word k r v (edited qs op) := by
  cases k with
  | param => exact h
  | component => exact Props.EditSave.settable_edited w r v op qs h
  | model => exact Props.EditSave.settable_edited w r v op qs h

/-- What an editor says that opens the text: the swept components and parameters have the values of `ed`, all others those of the netlist. -/
def Says (dims : List (Dim Str)) (ps : List Part) (ed : Model.Stepper.What × Nat → Option Str) (value : Model.Stepper.What → Str → Option Str) : Prop :=
  (∀ d ∈ dims, value d.what (name d.elem) = (ed (d.what, d.elem)).or (given d.what (name d.elem) ps)) ∧
  ∀ k r, (∀ d ∈ dims, SameKind d.what k → upper (name d.elem) ≠ upper r) → value k r = given k r ps

variable (dims : List (Dim Str)) (task : Nat → Option Nat) (ps : List Part) (e : Str)

/-- A file that says what `ed` says. -/
def Wrote (ed : Model.Stepper.What × Nat → Option Str) (text : Str) : Prop :=
  (∃ ps', text = fileText ps' e ∧ Grown ps ps') ∧
  ∃ els, openText w numeric shown text = some els ∧ Says name dims ps ed (fun k r => asked k r els)

structure Inv (runno : Nat) (s : St) : Prop where
  parts : ∃ qs els, s.els = els ++ [.item (.prim e)] ∧ List.Forall₂ (Rel w numeric) qs els ∧ Grown ps qs ∧
    (∀ d ∈ dims, ∀ v ∈ d.vals, Sweepable w.word d.what (name d.elem) v qs) ∧ Says name dims ps s.loop.editor (fun k r => given k r qs)
  number : s.runno = runno + s.folder.length
  files : ∀ (k : Nat) (f text : Str), s.folder[k]? = some (f, text) → f = Model.Runner.runFileName circuit (runno + k + 1)
  launches : List.Forall₂ (fun l x => Wrote w numeric shown name dims ps e l.1 x.2) s.loop.launches s.folder

variable (he : kindOf e = some .closing) (hl : OneLine e) (ht : Spec.NetSave.Tidy e)
variable (hn : ∀ d ∈ dims, ∀ d' ∈ dims, SameKind d.what d'.what → upper (name d.elem) = upper (name d'.elem) → (d.what, d.elem) = (d'.what, d'.elem))

include he hl ht hn in
theorem inv_pass (runno : Nat) (s : St) (hi : Inv w numeric shown circuit name dims ps e runno s) :
    (Model.Stepper.step dims task s.loop = none ∧ pass w numeric shown included circuit name dims task s = .stop) ∨
    ∃ s', Model.Stepper.step dims task s.loop = some s'.loop ∧ pass w numeric shown included circuit name dims task s = .next s' ∧
      Inv w numeric shown circuit name dims ps e runno s' := by
  obtain ⟨⟨qs, els, p1, p2, p3, p4, p5⟩, h2, h3, h4⟩ := hi
  cases hst : Model.Stepper.step dims task s.loop with
  | none => exact .inl ⟨rfl, by unfold pass; rw [hst]⟩
  | some loop =>
    right
    unfold pass
    rw [hst]
    simp only
    unfold Model.Stepper.step at hst
    split at hst
    · simp at hst
    · cases hd : dims[s.loop.iterNo.toNat]? with
      | some d =>
        rw [hd] at hst
        simp only at hst ⊢
        have hdm : d ∈ dims := List.mem_of_getElem? hd
        cases hv : d.vals[s.loop.pos (handle s.loop.iterNo.toNat d)]? with
        | none =>
          rw [hv] at hst
          simp only [Option.some.injEq] at hst ⊢
          refine ⟨_, rfl, rfl, ⟨⟨qs, els, p1, p2, p3, p4, ?_⟩, h2, h3, ?_⟩⟩
          · rw [← hst]; exact p5
          · rw [← hst]; exact h4
        | some v =>
          rw [hv] at hst
          simp only [Option.some.injEq] at hst ⊢
          have hvm : v ∈ d.vals := List.mem_of_getElem? hv
          have hsw := p4 d hdm v hvm
          obtain ⟨els', g1, g2⟩ : ∃ els', setPass name d v loop s = .next { s with loop := loop, els := els' ++ [.item (.prim e)] } ∧
              List.Forall₂ (Rel w numeric) (edited qs (opOf d.what (name d.elem) v)) els' := by
            unfold setPass
            rw [p1]
            cases hwd : d.what with
            | param =>
              rw [hwd] at hsw
              obtain ⟨els', k1, k2⟩ := Props.EditSave.param_rel w numeric (name d.elem) v e hsw he qs els p2
              exact ⟨els', by simp only [k1], k2⟩
            | component =>
              rw [hwd] at hsw
              obtain ⟨els', k1, k2⟩ := Props.EditSave.set_rel w numeric (name d.elem) v qs els [.item (.prim e)] p2 hsw
              exact ⟨els', by simp only [k1], k2⟩
            | model =>
              rw [hwd] at hsw
              obtain ⟨els', k1, k2⟩ := Props.EditSave.set_rel w numeric (name d.elem) v qs els [.item (.prim e)] p2 hsw
              exact ⟨els', by simp only [k1], k2⟩
          refine ⟨_, rfl, g1, ⟨⟨edited qs (opOf d.what (name d.elem) v), els', rfl, g2, grown_edited _ _ _ p3, ?_, ?_, ?_⟩, h2, h3, ?_⟩⟩
          · intro d' hd' v' hv'
            exact sweepable_edited w _ _ _ _ qs (p4 d' hd' v' hv')
          · intro d' hd'
            show given d'.what (name d'.elem) _ = _
            rw [← hst]
            simp only [upd]
            by_cases sk : SameKind d.what d'.what
            · rw [(given_edit w d.what d'.what _ (name d'.elem) v qs hsw).1 sk]
              by_cases c : upper (name d.elem) = upper (name d'.elem)
              · rw [if_pos c, ← hn d hdm d' hd' sk c, if_pos rfl]; rfl
              · rw [if_neg c]
                rw [if_neg]
                · exact p5.1 d' hd'
                · intro hk
                  apply c
                  have : d'.elem = d.elem := by injection hk
                  rw [this]
            · rw [(given_edit w d.what d'.what _ (name d'.elem) v qs hsw).2 sk, if_neg]
              · exact p5.1 d' hd'
              · intro hk
                apply sk
                have : d'.what = d.what := by injection hk
                rw [this]; exact Iff.rfl
          · intro k r hr
            show given k r _ = _
            by_cases sk : SameKind d.what k
            · rw [(given_edit w d.what k _ r v qs hsw).1 sk, if_neg (hr d hdm sk)]
              exact p5.2 k r hr
            · rw [(given_edit w d.what k _ r v qs hsw).2 sk]
              exact p5.2 k r hr
          · rw [← hst]; exact h4
      | none =>
        rw [hd] at hst
        simp only [Option.some.injEq] at hst ⊢
        have hsave : save w numeric shown included [.item (.prim e)] = some e := by
          simp only [save, writeEl, Model.NetTree.writeItem]
          rw [ht]; simp
        obtain ⟨ps', g1, g2, g3⟩ := Props.EditSave.save_rel w numeric shown included [.item (.prim e)] e hsave qs els p2
        have ef : (linesOf (ps'.map Part.toBlock)).flatten ++ e = fileText ps' e := by simp [fileText]
        rw [ef] at g3
        have hrun : runPass w numeric shown included circuit loop s = .next { s with loop := loop, runno := s.runno + 1, folder := s.folder ++ [(Model.Runner.runFileName circuit (s.runno + 1), fileText ps' e)] } := by
          unfold runPass
          rw [p1, g3]
        refine ⟨_, rfl, hrun, ⟨⟨qs, els, p1, p2, p3, p4, ?_⟩, ?_, ?_, ?_⟩⟩
        · rw [← hst]; exact p5
        · simp only [List.length_append, List.length_singleton]; omega
        · intro k f text hk
          simp only at hk
          by_cases c : k < s.folder.length
          · rw [List.getElem?_append_left c] at hk
            exact h3 k f text hk
          · rw [List.getElem?_append_right (by omega)] at hk
            cases hkk : k - s.folder.length with
            | zero =>
              rw [hkk] at hk
              simp only [List.getElem?_cons_zero, Option.some.injEq, Prod.mk.injEq] at hk
              rw [← hk.1, h2]
              congr 1; omega
            | succ m => rw [hkk] at hk; simp at hk
        · rw [← hst]
          simp only
          refine List.rel_append h4 (.cons ?_ .nil)
          refine ⟨⟨ps', rfl, grown_same _ _ _ p3 g1⟩, ?_⟩
          obtain ⟨els2, o1, o2⟩ := Props.EditSave.open_rel w numeric shown ps' g2 e he hl
          refine ⟨_, o1, ?_⟩
          have hg : ∀ k r, asked k r (els2 ++ [.item (.prim e)]) = given k r qs := by
            intro k r
            have a1 : getValue r (els2 ++ [.item (.prim e)]) = first r qs := by
              rw [Props.EditSave.get_rel w numeric r _ rfl _ _ o2, Props.EditSave.first_same r _ _ g1]
            have a2 : getParameter r (els2 ++ [.item (.prim e)]) = paramOf r qs := by
              rw [Props.EditSave.get_param_rel w numeric r e he _ _ o2, Props.EditSave.param_same r _ _ g1]
            cases k with
            | param => exact a2
            | component => exact a1
            | model => exact a1
          simp only [hg]
          exact p5

include he hl ht hn in
theorem inv_run (runno : Nat) : ∀ (n : Nat) (s : St) (t : Model.Stepper.St Str), Inv w numeric shown circuit name dims ps e runno s →
    Model.Stepper.runAll dims task n s.loop = some t →
    ∃ s', runAll w numeric shown included circuit name dims task n s = .done s' ∧ s'.loop = t ∧ Inv w numeric shown circuit name dims ps e runno s' := by
  intro n
  induction n with
  | zero => intro s t _ h; simp [Model.Stepper.runAll] at h
  | succ n ih =>
    intro s t hi h
    rcases inv_pass w numeric shown included circuit name dims task ps e he hl ht hn runno s hi with ⟨g1, g2⟩ | ⟨s1, g1, g2, g3⟩
    · rw [Model.Stepper.runAll, g1] at h
      simp only [Option.some.injEq] at h
      exact ⟨s, by rw [runAll, g2], h, hi⟩
    · rw [Model.Stepper.runAll, g1] at h
      obtain ⟨s', k1, k2, k3⟩ := ih s1 t g3 h
      exact ⟨s', by rw [runAll, g2]; exact k1, k2, k3⟩

theorem runName_inj {m n : Nat} (h : Model.Runner.runFileName circuit m = Model.Runner.runFileName circuit n) : m = n := by
  unfold Model.Runner.runFileName at h
  simp only at h
  exact Props.Cleanup.digits_inj (by simpa using List.append_cancel_left h)

theorem content_get (folder : List (Str × Str)) (hd : (folder.map Prod.fst).Nodup) (k : Nat) (f text : Str) (h : folder[k]? = some (f, text)) : content folder f = some text := by
  unfold content
  have hm : (f, text) ∈ folder.reverse := List.mem_reverse.2 (List.mem_of_getElem? h)
  have hd' : (folder.reverse.map Prod.fst).Nodup := by rw [List.map_reverse]; exact List.nodup_reverse.2 hd
  generalize folder.reverse = l at hm hd'
  induction l with
  | nil => simp at hm
  | cons x l ih =>
    obtain ⟨a, b⟩ := x
    simp only [List.map_cons, List.nodup_cons] at hd'
    rcases List.mem_cons.1 hm with hm' | hm'
    · injection hm' with h1 h2
      subst h1; subst h2
      simp
    · have : f ≠ a := by
        rintro rfl
        exact hd'.1 (List.mem_map.2 ⟨(f, text), hm', rfl⟩)
      rw [List.lookup_cons, beq_false_of_ne this]
      exact ih hm' hd'.2

include he hl ht hn in
/-- C104: run_all, with sweeps of component values, models and parameters, writes one netlist file for each combination of the swept values, in order (the first sweep the
slowest), each under the name of its run; when all is done the file of run k says exactly the k-th combination: an editor that opens it
finds for every swept component and parameter the value of the combination and for every other the value of the original netlist, and apart from
values and the lines of new parameters it is the original netlist line by line. -/
theorem C104_files (hok : ∀ p ∈ ps, p.Ok w.word (NameOk numeric)) (hr : ReusableSweeps dims) (hk : (dims.map fun d => (d.what, d.elem)).Nodup)
    (hs : ∀ d ∈ dims, ∀ v ∈ d.vals, Sweepable w.word d.what (name d.elem) v ps) (pos : Model.Stepper.Handle → Nat) (cur : Nat → Option Str) (info : Nat → Option (Nat → Option Str)) (runno : Nat) :
    ∃ els, openText w numeric shown (fileText ps e) = some els ∧ ∃ s' N,
      (∀ n, N ≤ n → runAll w numeric shown included circuit name dims task n ⟨Model.Stepper.init dims pos (fun _ => none) cur info, els, runno, []⟩ = .done s') ∧
      s'.folder.length = (Spec.product (dims.map (·.vals))).length ∧ s'.runno = runno + s'.folder.length ∧
      ∀ (k : Nat) (c : List Str), (Spec.product (dims.map (·.vals)))[k]? = some c →
        ∃ text els', content s'.folder (Model.Runner.runFileName circuit (runno + k + 1)) = some text ∧ openText w numeric shown text = some els' ∧
          (∃ ps', text = fileText ps' e ∧ Grown ps ps') ∧
          (∀ (i : Nat) (d : Dim Str), dims[i]? = some d → ∃ v, c[i]? = some v ∧ asked d.what (name d.elem) els' = some v) ∧
          ∀ k' r, (∀ d ∈ dims, SameKind d.what k' → upper (name d.elem) ≠ upper r) → asked k' r els' = given k' r ps := by
  obtain ⟨els, h1, h2⟩ := Props.EditSave.open_rel w numeric shown ps hok e he hl
  refine ⟨_, h1, ?_⟩
  obtain ⟨t, N, hN, _⟩ := Props.Stepper.C05_run_all_product dims task hr pos (fun _ => none) cur info
  have hi : Inv w numeric shown circuit name dims ps e runno ⟨Model.Stepper.init dims pos (fun _ => none) cur info, els ++ [.item (.prim e)], runno, []⟩ := by
    refine ⟨⟨ps, els, rfl, h2, grown_refl ps, hs, ?_, fun _ _ _ => rfl⟩, rfl, by simp, .nil⟩
    intro d _; rfl
  obtain ⟨s', k1, k2, k3⟩ := inv_run w numeric shown included circuit name dims task ps e he hl ht hn runno N _ t hi (hN N (Nat.le_refl N))
  have hlv := Props.Stepper.C05_launch_values dims task hr hk pos (fun _ => none) cur info N t (hN N (Nat.le_refl N))
  have hlen : s'.folder.length = s'.loop.launches.length := k3.launches.length_eq.symm
  refine ⟨s', N, ?_, by rw [hlen, k2, hlv.1], k3.number, ?_⟩
  · intro n hn'
    obtain ⟨s2, q1, q2, q3⟩ := inv_run w numeric shown included circuit name dims task ps e he hl ht hn runno n _ t hi (hN n hn')
    have mono : ∀ (n m : Nat) (s r : St), runAll w numeric shown included circuit name dims task n s = .done r → n ≤ m →
        runAll w numeric shown included circuit name dims task m s = .done r := by
      intro n
      induction n with
      | zero => intro m s r h; simp [runAll] at h
      | succ n ih =>
        intro m s r h hm
        obtain ⟨m', rfl⟩ : ∃ m', m = m' + 1 := ⟨m - 1, by omega⟩
        rw [runAll] at h ⊢
        cases hp : pass w numeric shown included circuit name dims task s with
        | stop => rw [hp] at h; exact h
        | raised => rw [hp] at h; simp at h
        | next s1 => rw [hp] at h; exact ih m' s1 r h (by omega)
    exact mono N n _ _ k1 hn'
  · intro k c hc
    have hkl : k < s'.folder.length := by
      rw [hlen, k2, hlv.1]
      exact (List.getElem?_eq_some_iff.1 hc).1
    obtain ⟨⟨f, text⟩, hx⟩ : ∃ x, s'.folder[k]? = some x := ⟨_, List.getElem?_eq_getElem hkl⟩
    obtain ⟨⟨ed, cu⟩, hy⟩ : ∃ x, s'.loop.launches[k]? = some x := ⟨_, List.getElem?_eq_getElem (by omega)⟩
    have hf := k3.files k f text hx
    have hwr : Wrote w numeric shown name dims ps e ed text := by
      have := (List.forall₂_iff_get.1 k3.launches).2 k (by omega) hkl
      rw [List.getElem?_eq_getElem hkl, Option.some.injEq] at hx
      rw [List.getElem?_eq_getElem (by omega), Option.some.injEq] at hy
      simp only [List.get_eq_getElem, hx, hy] at this
      exact this
    have hnd : (s'.folder.map Prod.fst).Nodup := by
      rw [List.nodup_iff_injective_get]
      intro a b hab
      obtain ⟨a, ha⟩ := a
      obtain ⟨b, hb⟩ := b
      simp only [List.length_map] at ha hb
      simp only [List.get_eq_getElem, List.getElem_map] at hab
      have e1 : s'.folder[a].1 = _ := k3.files a _ _ (List.getElem?_eq_getElem ha)
      have e2 : s'.folder[b].1 = _ := k3.files b _ _ (List.getElem?_eq_getElem hb)
      rw [e1, e2] at hab
      have := runName_inj circuit hab
      simp only [Fin.mk.injEq]
      omega
    have hco := content_get s'.folder hnd k f text hx
    obtain ⟨hp, els', o1, o2⟩ := hwr
    refine ⟨text, els', by rw [← hf]; exact hco, o1, hp, ?_, o2.2⟩
    intro i d hd
    obtain ⟨c', hc', hv, _⟩ := hlv.2 k ed cu (by rw [← k2]; exact hy)
    rw [hc] at hc'
    injection hc' with hc'
    subst hc'
    obtain ⟨v1, v, v2⟩ := hv i d hd
    refine ⟨v, v2, ?_⟩
    have := o2.1 d (List.mem_of_getElem? hd)
    simp only [v1, v2] at this
    exact this

/-! ### Any program -/

include he hl ht in
theorem step_rel (op : Op) (qs : List Part) (els : List El) (h : List.Forall₂ (Rel w numeric) qs els) (hs : Legal w.word [op] qs) :
    ∃ els', step w numeric shown included (els ++ [.item (.prim e)]) op = some (els' ++ [.item (.prim e)]) ∧ List.Forall₂ (Rel w numeric) (edited qs op) els' := by
  obtain ⟨els', h1, h2⟩ := Props.EditSave.run_rel w numeric shown included e he hl ht [op] qs els h hs
  refine ⟨els', ?_, h2⟩
  simp only [run] at h1
  cases hst : step w numeric shown included (els ++ [.item (.prim e)]) op with
  | none => rw [hst] at h1; simp at h1
  | some x => rw [hst] at h1; simpa using h1

/-- The state after the actions `as`, in terms of the specification. -/
structure After (runno : Nat) (as : List Act) (s : Session) : Prop where
  parts : ∃ els, s.els = els ++ [.item (.prim e)] ∧ List.Forall₂ (Rel w numeric) ((edits as).foldl edited ps) els
  number : s.runno = runno + s.folder.length
  count : s.folder.length = as.count .run
  files : ∀ (k : Nat) (f text : Str), s.folder[k]? = some (f, text) → f = Model.Runner.runFileName circuit (runno + k + 1)
  texts : ∀ (before later : List Act), as = before ++ .run :: later → ∃ text ps', (s.folder[before.count .run]?).map Prod.snd = some text ∧ text = fileText ps' e ∧
    (∀ p ∈ ps', p.Ok w.word (NameOk numeric)) ∧ List.Forall₂ Part.Same ((edits before).foldl edited ps) ps'

include he hl ht in
theorem acts_after (runno : Nat) (els0 : List El) (h0 : List.Forall₂ (Rel w numeric) ps els0) (as : List Act) (hs : Legal w.word (edits as) ps) :
    ∃ s, acts w numeric shown included circuit ⟨els0 ++ [.item (.prim e)], runno, []⟩ as = some s ∧ After w numeric circuit ps e runno as s := by
  have snoc : ∀ (as : List Act) (a : Act) (s : Session), acts w numeric shown included circuit s (as ++ [a]) =
      (acts w numeric shown included circuit s as).bind (fun s => act w numeric shown included circuit s a) := by
    intro as a
    induction as with
    | nil => intro s; simp [acts]
    | cons b as ih =>
      intro s
      simp only [List.cons_append, acts]
      cases act w numeric shown included circuit s b with
      | none => rfl
      | some x => simpa using ih x
  induction as using List.reverseRecOn with
  | nil =>
    refine ⟨_, rfl, ⟨els0, rfl, h0⟩, rfl, rfl, by simp, ?_⟩
    intro before later h
    simp at h
  | append_singleton as a ih =>
    obtain ⟨s, i1, ⟨els, p1, p2⟩, i2, i3, i4, i5⟩ := ih ⟨fun r v hm => hs.values r v (by rw [edits, List.filterMap_append]; exact List.mem_append_left _ hm), fun r v hm => hs.params r v (by rw [edits, List.filterMap_append]; exact List.mem_append_left _ hm)⟩
    rw [snoc, i1]
    simp only [Option.bind_some]
    cases a with
    | edit op =>
      have hset : Legal w.word [op] ((edits as).foldl edited ps) := by
        have hm : ∀ o, o ∈ [op] → o ∈ edits (as ++ [.edit op]) := by
          intro o ho
          rw [List.mem_singleton.1 ho]
          simp [edits]
        exact ⟨fun r v h => Props.EditSave.settable_all w r v _ _ (hs.values r v (hm _ h)), fun r v h => hs.params r v (hm _ h)⟩
      obtain ⟨els', g1, g2⟩ := step_rel w numeric shown included e he hl ht op _ els p2 hset
      refine ⟨{ s with els := els' ++ [.item (.prim e)] }, ?_, ⟨els', rfl, ?_⟩, i2, ?_, i4, ?_⟩
      · simp only [act, p1, g1, Option.map_some]
      · rw [edits, List.filterMap_append, List.foldl_append]
        exact g2
      · rw [List.count_append]; simpa using i3
      · intro before later h
        rcases List.eq_nil_or_concat later with rfl | ⟨l', x, rfl⟩
        · have := List.append_inj_right' h rfl
          simp at this
        · rw [List.concat_eq_append] at h
          have h' : as ++ [.edit op] = (before ++ .run :: l') ++ [x] := by simpa using h
          exact i5 before l' (List.append_inj_left' h' rfl)
    | run =>
      have hsave : save w numeric shown included [.item (.prim e)] = some e := by
        simp only [save, writeEl, Model.NetTree.writeItem]
        rw [ht]; simp
      obtain ⟨ps', g1, g2, g3⟩ := Props.EditSave.save_rel w numeric shown included [.item (.prim e)] e hsave _ els p2
      have ef : (linesOf (ps'.map Part.toBlock)).flatten ++ e = fileText ps' e := by simp [fileText]
      rw [ef] at g3
      refine ⟨{ s with runno := s.runno + 1, folder := s.folder ++ [(Model.Runner.runFileName circuit (s.runno + 1), fileText ps' e)] }, ?_, ⟨els, p1, ?_⟩, ?_, ?_, ?_, ?_⟩
      · simp only [act, p1, g3, Option.map_some]
      · rw [edits, List.filterMap_append, List.foldl_append]
        exact p2
      · simp only [List.length_append, List.length_singleton]; omega
      · rw [List.count_append]; simp [i3]
      · intro k f text hk
        simp only at hk
        by_cases c : k < s.folder.length
        · rw [List.getElem?_append_left c] at hk
          exact i4 k f text hk
        · rw [List.getElem?_append_right (by omega)] at hk
          cases hkk : k - s.folder.length with
          | zero =>
            rw [hkk] at hk
            simp only [List.getElem?_cons_zero, Option.some.injEq, Prod.mk.injEq] at hk
            rw [← hk.1, i2]
            congr 1; omega
          | succ m => rw [hkk] at hk; simp at hk
      · intro before later h
        rcases List.eq_nil_or_concat later with rfl | ⟨l', x, rfl⟩
        · have hb : as = before := List.append_inj_left' h rfl
          subst hb
          refine ⟨fileText ps' e, ps', ?_, rfl, g2, g1⟩
          simp only
          rw [← i3, List.getElem?_append_right (Nat.le_refl _)]
          simp
        · rw [List.concat_eq_append] at h
          have h' : as ++ [.run] = (before ++ .run :: l') ++ [x] := by simpa using h
          have ha := List.append_inj_left' h' rfl
          obtain ⟨text, ps2, t1, t2, t3⟩ := i5 before l' ha
          refine ⟨text, ps2, ?_, t2, t3⟩
          simp only
          rw [List.getElem?_append_left]
          · exact t1
          · rw [i3, ha, List.count_append, List.count_cons]
            simp

include he hl ht in
/-- C104: in any program that sets values, runs the netlist and saves and reopens it, in any order, the file of each run is a snapshot: at the end of the program it says
the values as they were set before that run, whatever was set and run afterwards. -/
theorem C104_snapshot (hok : ∀ p ∈ ps, p.Ok w.word (NameOk numeric)) (runno : Nat) (as : List Act) (hs : Legal w.word (edits as) ps) :
    ∃ els s, openText w numeric shown (fileText ps e) = some els ∧ acts w numeric shown included circuit ⟨els, runno, []⟩ as = some s ∧
      s.folder.length = as.count .run ∧
      ∀ (before later : List Act), as = before ++ .run :: later →
        ∃ text els', content s.folder (Model.Runner.runFileName circuit (runno + before.count .run + 1)) = some text ∧ openText w numeric shown text = some els' ∧
          (∃ ps', text = fileText ps' e ∧ List.Forall₂ Part.Same ((edits before).foldl edited ps) ps') ∧
          ∀ r, getValue r els' = (lastSet r (edits before)).or (first r ps) ∧ getParameter r els' = (lastParam r (edits before)).or (paramOf r ps) := by
  obtain ⟨els, h1, h2⟩ := Props.EditSave.open_rel w numeric shown ps hok e he hl
  obtain ⟨s, a1, ha⟩ := acts_after w numeric shown included circuit ps e he hl ht runno els h2 as hs
  refine ⟨_, s, h1, a1, ha.count, ?_⟩
  intro before later hb
  obtain ⟨text, ps', t1, t2, t3, t4⟩ := ha.texts before later hb
  have hnd : (s.folder.map Prod.fst).Nodup := by
    rw [List.nodup_iff_injective_get]
    intro a b hab
    obtain ⟨a, ha'⟩ := a
    obtain ⟨b, hb'⟩ := b
    simp only [List.length_map] at ha' hb'
    simp only [List.get_eq_getElem, List.getElem_map] at hab
    have e1 : s.folder[a].1 = _ := ha.files a _ _ (List.getElem?_eq_getElem ha')
    have e2 : s.folder[b].1 = _ := ha.files b _ _ (List.getElem?_eq_getElem hb')
    rw [e1, e2] at hab
    have := runName_inj circuit hab
    simp only [Fin.mk.injEq]
    omega
  obtain ⟨⟨f, text'⟩, x1, x2⟩ := Option.map_eq_some_iff.1 t1
  simp only at x2
  subst x2
  have hf := ha.files _ f text' x1
  obtain ⟨els2, o1, o2⟩ := Props.EditSave.open_rel w numeric shown ps' t3 e he hl
  refine ⟨text', _, by rw [← hf]; exact content_get _ hnd _ _ _ x1, by rw [t2]; exact o1, ⟨ps', t2, t4⟩, ?_⟩
  intro r
  rw [Props.EditSave.get_rel w numeric r _ rfl _ _ o2, Props.EditSave.first_same r _ _ t4, Props.EditSave.get_param_rel w numeric r e he _ _ o2, Props.EditSave.param_same r _ _ t4]
  have hm : ∀ o, o ∈ edits before → o ∈ edits as := by
    intro o ho
    rw [hb, edits, List.filterMap_append]
    exact List.mem_append_left _ ho
  exact ⟨Props.EditSave.first_edited w r _ ps ⟨fun r v h => hs.values r v (hm _ h), fun r v h => hs.params r v (hm _ h)⟩, Props.EditSave.param_edited r _ ps⟩

/-! ### Examples -/

open Props.CompLine (ascii digits str)
open Props.EditSave (exParts exParts_ok ex_unb)

/-- A sweep of R1 over a list, and in each of its steps one of the parameter x. -/
def exDims : List (Dim Str) := [⟨.component, 0, 1, .fresh, ["1k".toList, "{x + 1}".toList, "10k".toList]⟩, ⟨.param, 1, 2, .fresh, ["{2*pi}".toList, "5k".toList]⟩]

/-- The names of what is swept. -/
def exName (k : Nat) : Str := if k = 0 then "r1".toList else "X".toList

theorem exDims_ok : ∀ d ∈ exDims, ∀ v ∈ d.vals, Sweepable ascii.word d.what (exName d.elem) v exParts := by
  intro d hd v hv
  simp only [exDims, List.mem_cons, List.not_mem_nil, or_false] at hd
  rcases hd with rfl | rfl
  · simp only [List.mem_cons, List.not_mem_nil, or_false] at hv
    rcases hv with rfl | rfl | rfl
    · exact ⟨by decide +kernel, .inl ⟨by decide +kernel, ⟨.plain _ (by decide) (by decide +kernel), by unfold Quiet; decide +kernel, by decide +kernel⟩⟩⟩
    · exact ⟨by decide +kernel, .inl ⟨by decide +kernel, ⟨.braces "x + 1".toList (by decide +kernel), by unfold Quiet; decide +kernel, by decide +kernel⟩⟩⟩
    · exact ⟨by decide +kernel, .inl ⟨by decide +kernel, ⟨.plain _ (by decide) (by decide +kernel), by unfold Quiet; decide +kernel, by decide +kernel⟩⟩⟩
  · have nn : ¬ Spec.ParamLine.NumberLike "X".toList := by
      rintro ⟨c, h3, h4⟩
      have h5 : c = 'X' := by simpa using h3.symm
      subst h5
      exact absurd h4 (by unfold Spec.ParamLine.NumChar; decide)
    simp only [List.mem_cons, List.not_mem_nil, or_false] at hv
    rcases hv with rfl | rfl
    · exact (⟨⟨by decide, by unfold Spec.ParamLine.NameChar; decide⟩, nn,
        ⟨.inl ⟨"2*pi".toList, by decide, by decide⟩, by unfold Quiet; decide, by decide⟩⟩ : ParamSet "X".toList "{2*pi}".toList)
    · exact (⟨⟨by decide, by unfold Spec.ParamLine.NameChar; decide⟩, nn,
        ⟨.inr (.inr ⟨"5".toList, "k".toList, by decide, by decide, by unfold Spec.ParamLine.NumChar; decide, by decide⟩), by unfold Quiet; decide, by decide⟩⟩ : ParamSet "X".toList "5k".toList)

example : ∃ els, openText ascii digits str (fileText exParts ".end\n".toList) = some els ∧ ∃ s' N,
    (∀ n, N ≤ n → runAll ascii digits str (fun _ => none) "demo.net".toList exName exDims (fun _ => none) n
      ⟨Model.Stepper.init exDims (fun _ => 0) (fun _ => none) (fun _ => none) (fun _ => none), els, 4, []⟩ = .done s') ∧ s'.folder.length = 6 ∧
    ∃ text els', content s'.folder "demo_8.net".toList = some text ∧ openText ascii digits str text = some els' ∧ getValue "r1".toList els' = some "{x + 1}".toList ∧
      getParameter "X".toList els' = some "5k".toList ∧ getValue "E1".toList els' = some "value={2*V(a, b)}".toList := by
  obtain ⟨els, h1, s', N, h2, h3, h4, h5⟩ := C104_files ascii digits str (fun _ => none) "demo.net".toList exName exDims (fun _ => none) exParts ".end\n".toList (by decide +kernel)
    ⟨⟨".end".toList, by decide, .inr (.inl ⟨ex_unb _ (by decide +kernel) (by decide +kernel), by decide +kernel⟩)⟩, by decide, by decide⟩ (by unfold Spec.NetSave.Tidy; decide +kernel)
    (by
      intro d hd d' hd' hk _
      simp only [exDims, List.mem_cons, List.not_mem_nil, or_false] at hd hd'
      rcases hd with rfl | rfl <;> rcases hd' with rfl | rfl <;> simp_all [SameKind])
    exParts_ok (by simp [ReusableSweeps, exDims]) (by simp [exDims]) exDims_ok (fun _ => 0) (fun _ => none) (fun _ => none) 4
  obtain ⟨text, els', k1, k2, _, k3, k4⟩ := h5 3 ["{x + 1}".toList, "5k".toList] (by decide +kernel)
  refine ⟨els, h1, s', N, h2, by rw [h3]; decide +kernel, text, els', k1, k2, ?_, ?_, ?_⟩
  · obtain ⟨v, v1, v2⟩ := k3 0 _ rfl
    simp only [List.getElem?_cons_zero, Option.some.injEq] at v1
    rw [← v1] at v2
    exact v2
  · obtain ⟨v, v1, v2⟩ := k3 1 _ rfl
    simp only [List.getElem?_cons_succ, List.getElem?_cons_zero, Option.some.injEq] at v1
    rw [← v1] at v2
    exact v2
  · have := k4 .component "E1".toList (by
      intro d hd _
      simp only [exDims, List.mem_cons, List.not_mem_nil, or_false] at hd
      rcases hd with rfl | rfl <;> decide +kernel)
    refine (this : getValue _ _ = first _ _).trans ?_
    decide +kernel

/-- Set, run, set, run: the first file keeps the first value. -/
example : ∃ els s, openText ascii digits str (fileText exParts ".end\n".toList) = some els ∧
    acts ascii digits str (fun _ => none) "demo.net".toList ⟨els, 0, []⟩ [.edit (.set "r1".toList "10k".toList), .run, .edit (.set "R1".toList "{x + 1}".toList), .edit (.param "gain".toList "5k".toList), .run] = some s ∧
    ∃ text els', content s.folder "demo_1.net".toList = some text ∧ openText ascii digits str text = some els' ∧ getValue "R1".toList els' = some "10k".toList ∧
      getParameter "gain".toList els' = none := by
  obtain ⟨els, s, h1, h2, _, h3⟩ := C104_snapshot ascii digits str (fun _ => none) "demo.net".toList exParts ".end\n".toList (by decide +kernel)
    ⟨⟨".end".toList, by decide, .inr (.inl ⟨ex_unb _ (by decide +kernel) (by decide +kernel), by decide +kernel⟩)⟩, by decide, by decide⟩ (by unfold Spec.NetSave.Tidy; decide +kernel)
    exParts_ok 0 [.edit (.set "r1".toList "10k".toList), .run, .edit (.set "R1".toList "{x + 1}".toList), .edit (.param "gain".toList "5k".toList), .run] (by
      have hsub : ∀ o ∈ edits [.edit (.set "r1".toList "10k".toList), .run, .edit (.set "R1".toList "{x + 1}".toList), .edit (.param "gain".toList "5k".toList), .run], o ∈ Props.EditSave.exOps := by
        intro o ho
        simp only [edits, List.filterMap_cons, List.filterMap_nil, List.mem_cons, List.not_mem_nil, or_false] at ho
        rcases ho with rfl | rfl | rfl <;> simp only [Props.EditSave.exOps, List.mem_cons, true_or, or_true]
      exact ⟨fun r v h => Props.EditSave.exOps_ok.values r v (hsub _ h), fun r v h => Props.EditSave.exOps_ok.params r v (hsub _ h)⟩)
  obtain ⟨text, els', k1, k2, _, k3⟩ := h3 [.edit (.set "r1".toList "10k".toList)] _ rfl
  refine ⟨els, s, h1, h2, text, els', k1, k2, ?_, ?_⟩
  · rw [(k3 _).1]; decide +kernel
  · rw [(k3 _).2]; decide +kernel

end Props.SweepFiles
