import Verif.Spec.RunSnap
import Verif.Props.Session
import Verif.Props.SweepFiles

/-! C110: the netlist files of the runs of any program, and of worst-case, sensitivity and Monte-Carlo analyses. -/
namespace Props.RunSnap
open Model.RunSnap Model.EditSave Spec.EditSave Spec.Session Spec.SweepFiles Spec.RunSnap
open Model.CompLine (WordClass)
open Model.Params (PV)
open Model.PyStr (upper)
open Model.Stepper (What)
open Spec.NetBlocks
open Props.Params (NameOk)
open Props.EditSave (Rel)
open Props.SweepFiles (opOf content_get runName_inj given_edit sweepable_edited)
open Model.SweepFiles (content)

abbrev Str := List Char

variable (w : WordClass) (numeric : Str → Bool) (shown : PV → Str) (included : Str → Option Str) (circuit : Str)
variable (e : Str) (he : kindOf e = some .closing) (hl : OneLine e) (ht : Spec.NetSave.Tidy e)

structure Inv (n : Nets) (s : St) : Prop where
  parts : ∃ els, s.els = els ++ [.item (.prim e)] ∧ List.Forall₂ (Rel w numeric) n.now els
  file : ∃ ps', s.file = fileText ps' e ∧ (∀ p ∈ ps', p.Ok w.word (NameOk numeric)) ∧ List.Forall₂ Part.Same n.base ps'

include ht in
theorem save_parts (qs : List Part) (els : List El) (h : List.Forall₂ (Rel w numeric) qs els) :
    ∃ ps', save w numeric shown included (els ++ [.item (.prim e)]) = some (fileText ps' e) ∧ List.Forall₂ Part.Same qs ps' ∧ ∀ p ∈ ps', p.Ok w.word (NameOk numeric) := by
  have hsave : save w numeric shown included [.item (.prim e)] = some e := by
    simp only [save, writeEl, Model.NetTree.writeItem]
    rw [ht]; simp
  obtain ⟨ps', g1, g2, g3⟩ := Props.EditSave.save_rel w numeric shown included [.item (.prim e)] e hsave qs els h
  exact ⟨ps', by rw [g3]; simp [fileText], g1, g2⟩

include he hl ht in
/-- One action. -/
theorem act_inv (st : Step) (n : Nets) (s : St) (hi : Inv w numeric e n s) (ha : match st with | .change c => Allowed w.word (NameOk numeric) n.now c | _ => True) :
    ∃ s', act w numeric shown included circuit s st.act = some s' ∧ Inv w numeric e (after n st) s' ∧
      ((runs [st] = 0 ∧ s'.runno = s.runno ∧ s'.folder = s.folder) ∨
        (st = .run ∧ s'.runno = s.runno + 1 ∧ ∃ ps', s'.folder = s.folder ++ [(Model.Runner.runFileName circuit (s.runno + 1), fileText ps' e)] ∧
          (∀ p ∈ ps', p.Ok w.word (NameOk numeric)) ∧ List.Forall₂ Part.Same n.now ps')) := by
  obtain ⟨⟨els, p1, p2⟩, ps0, f1, f2, f3⟩ := hi
  cases st with
  | run =>
    obtain ⟨ps', g1, g2, g3⟩ := save_parts w numeric shown included e ht _ els p2
    refine ⟨{ s with runno := s.runno + 1, folder := s.folder ++ [(Model.Runner.runFileName circuit (s.runno + 1), fileText ps' e)] }, ?_, ⟨⟨els, p1, p2⟩, ps0, f1, f2, f3⟩, .inr ⟨rfl, rfl, ps', rfl, g3, g2⟩⟩
    simp only [Step.act, act, p1, g1, Option.map_some]
  | reset =>
    obtain ⟨els', o1, o2⟩ := Props.EditSave.open_rel w numeric shown ps0 f2 e he hl
    refine ⟨{ s with els := els' ++ [.item (.prim e)] }, ?_, ⟨⟨els', rfl, Props.EditSave.rels_same w numeric _ _ _ f3 o2⟩, ps0, f1, f2, f3⟩, .inl ⟨rfl, rfl, rfl⟩⟩
    simp only [Step.act, act, f1, o1, Option.map_some]
  | change c =>
    by_cases hc : c = .edit .reopen
    · subst hc
      obtain ⟨ps', g1, g2, g3⟩ := save_parts w numeric shown included e ht _ els p2
      obtain ⟨els', o1, o2⟩ := Props.EditSave.open_rel w numeric shown ps' g3 e he hl
      refine ⟨{ s with els := els' ++ [.item (.prim e)], file := fileText ps' e }, ?_, ⟨⟨els', rfl, Props.EditSave.rels_same w numeric _ _ _ g2 o2⟩, ps', rfl, g3, g2⟩, .inl ⟨rfl, rfl, rfl⟩⟩
      simp only [Step.act, Change.op, act, p1, g1, Option.bind_some, o1, Option.map_some]
    · obtain ⟨els', g1, g2⟩ := Props.Session.step_rel w numeric shown e he ht included hl c _ els p2 ha
      have ea : act w numeric shown included circuit s (.op c.op) = (Model.Session.step w numeric shown included s.els c.op).map (fun els => { s with els := els }) := by
        cases c with
        | edit o => cases o <;> first | rfl | exact absurd rfl hc
        | _ => rfl
      have en : after n (.change c) = ⟨n.base, changed n.now c⟩ := by
        cases c with
        | edit o => cases o <;> first | rfl | exact absurd rfl hc
        | _ => rfl
      refine ⟨{ s with els := els' ++ [.item (.prim e)] }, ?_, ?_, .inl ⟨rfl, rfl, rfl⟩⟩
      · simp only [Step.act, ea, p1, g1, Option.map_some]
      · rw [en]; exact ⟨⟨els', rfl, g2⟩, ps0, f1, f2, f3⟩

theorem runs_cons (s : Step) (ss : List Step) : runs (s :: ss) = runs [s] + runs ss := by
  unfold runs
  rw [← List.length_append, ← List.filter_append]; rfl

theorem runs_append (a b : List Step) : runs (a ++ b) = runs a + runs b := by
  unfold runs; rw [List.filter_append, List.length_append]

include he hl ht in
theorem acts_files : ∀ (ss : List Step) (n : Nets) (s : St), Inv w numeric e n s → Program w.word (NameOk numeric) n ss →
    ∃ s' files, acts w numeric shown included circuit s (ss.map Step.act) = some s' ∧ s'.folder = s.folder ++ files ∧ files.length = runs ss ∧
      (∀ (k : Nat) (f t : Str), files[k]? = some (f, t) → f = Model.Runner.runFileName circuit (s.runno + k + 1)) ∧
      ∀ before later, ss = before ++ .run :: later → ∃ f ps', files[runs before]? = some (f, fileText ps' e) ∧ (∀ p ∈ ps', p.Ok w.word (NameOk numeric)) ∧
        List.Forall₂ Part.Same (before.foldl after n).now ps' := by
  intro ss
  induction ss with
  | nil =>
    intro n s _ _
    refine ⟨s, [], rfl, by simp, rfl, by simp, ?_⟩
    intro before later h
    simp at h
  | cons st ss ih =>
    intro n s hi hp
    obtain ⟨s1, a1, a2, a3⟩ := act_inv w numeric shown included circuit e he hl ht st n s hi hp.1
    obtain ⟨s', files, b1, b2, b3, b4, b5⟩ := ih (after n st) s1 a2 hp.2
    rcases a3 with ⟨r0, r1, r2⟩ | ⟨rfl, r1, ps', r2, r3, r4⟩
    · refine ⟨s', files, ?_, by rw [b2, r2], by rw [runs_cons, r0, b3]; omega, by rw [← r1]; exact b4, ?_⟩
      · simp only [List.map_cons, acts, a1, Option.bind_some]; exact b1
      · intro before later h
        cases before with
        | nil =>
          simp only [List.nil_append, List.cons.injEq] at h
          rw [h.1] at r0; simp [runs] at r0
        | cons x before =>
          simp only [List.cons_append, List.cons.injEq] at h
          obtain ⟨rfl, h⟩ := h
          rw [runs_cons, r0, Nat.zero_add]
          exact b5 before later h
    · refine ⟨s', (Model.Runner.runFileName circuit (s.runno + 1), fileText ps' e) :: files, ?_, by rw [b2, r2]; simp, ?_, ?_, ?_⟩
      · simp only [List.map_cons, acts, a1, Option.bind_some]; exact b1
      · rw [runs_cons, List.length_cons, b3]; show _ = 1 + _; omega
      · intro k f t hk
        cases k with
        | zero =>
          simp only [List.getElem?_cons_zero, Option.some.injEq, Prod.mk.injEq] at hk
          exact hk.1.symm
        | succ k =>
          rw [List.getElem?_cons_succ] at hk
          have := b4 k f t hk
          rw [this, r1]; congr 1; omega
      · intro before later h
        cases before with
        | nil => exact ⟨_, ps', rfl, r3, r4⟩
        | cons x before =>
          simp only [List.cons_append, List.cons.injEq] at h
          obtain ⟨rfl, h⟩ := h
          obtain ⟨f, p2, q1, q2⟩ := b5 before later h
          refine ⟨f, p2, ?_, q2⟩
          rw [runs_cons]
          have e1 : runs [Step.run] + runs before = runs before + 1 := by show 1 + _ = _; omega
          rw [e1, List.getElem?_cons_succ]; exact q1

include he hl ht in
/-- C110: in any program that edits the netlist in any way (values, parameters, components and directives added and removed), runs it, resets it, and saves and reopens it, in any order, the file of each
run is a snapshot: at the end of the program it says the netlist as it was edited before that run, line by line up to blanks, and an editor that opens it finds the values and the parameters of that
netlist. After a reset the netlist is the one of the file that was opened or saved last. -/
theorem C110_snapshot (ps : List Part) (hok : ∀ p ∈ ps, p.Ok w.word (NameOk numeric)) (runno : Nat) (ss : List Step) (hs : Program w.word (NameOk numeric) ⟨ps, ps⟩ ss) :
    ∃ els s, openText w numeric shown (fileText ps e) = some els ∧ acts w numeric shown included circuit ⟨els, fileText ps e, runno, []⟩ (ss.map Step.act) = some s ∧
      s.folder.length = runs ss ∧
      ∀ before later, ss = before ++ .run :: later →
        ∃ text els' ps', content s.folder (Model.Runner.runFileName circuit (runno + runs before + 1)) = some text ∧ openText w numeric shown text = some els' ∧
          text = fileText ps' e ∧ List.Forall₂ Part.Same (before.foldl after ⟨ps, ps⟩).now ps' ∧
          ∀ k r, asked k r els' = given k r (before.foldl after ⟨ps, ps⟩).now := by
  obtain ⟨els, h1, h2⟩ := Props.EditSave.open_rel w numeric shown ps hok e he hl
  have hself : List.Forall₂ Part.Same ps ps := by
    clear hok hs h1 h2
    induction ps with
    | nil => exact .nil
    | cons p ps ih =>
      refine .cons ?_ ih
      cases p with
      | comp l sh => exact ⟨⟨rfl, rfl, rfl, rfl, rfl, rfl, rfl⟩, rfl, rfl⟩
      | short l k => rfl
      | params l => exact ⟨rfl, rfl, rfl⟩
      | block b => rfl
  obtain ⟨s, files, a1, a2, a3, a4, a5⟩ := acts_files w numeric shown included circuit e he hl ht ss ⟨ps, ps⟩ ⟨els ++ [.item (.prim e)], fileText ps e, runno, []⟩
    ⟨⟨els, rfl, h2⟩, ps, rfl, hok, hself⟩ hs
  simp only [List.nil_append] at a2
  refine ⟨_, s, h1, a1, by rw [a2, a3], ?_⟩
  intro before later hb
  obtain ⟨f, ps', b1, b2, b3⟩ := a5 before later hb
  have hnd : (s.folder.map Prod.fst).Nodup := by
    rw [a2, List.nodup_iff_injective_get]
    intro a b hab
    obtain ⟨a, ha'⟩ := a
    obtain ⟨b, hb'⟩ := b
    simp only [List.length_map] at ha' hb'
    simp only [List.get_eq_getElem, List.getElem_map] at hab
    have e1 : files[a].1 = _ := a4 a _ _ (List.getElem?_eq_getElem ha')
    have e2 : files[b].1 = _ := a4 b _ _ (List.getElem?_eq_getElem hb')
    rw [e1, e2] at hab
    have := runName_inj circuit hab
    simp only [Fin.mk.injEq]
    omega
  have hf := a4 _ f _ b1
  simp only at hf
  obtain ⟨els2, o1, o2⟩ := Props.EditSave.open_rel w numeric shown ps' b2 e he hl
  refine ⟨fileText ps' e, _, ps', by rw [← hf]; exact content_get _ hnd (runs before) f _ (by rw [a2]; exact b1), o1, rfl, b3, ?_⟩
  intro k r
  have g1 : getValue r (els2 ++ [.item (.prim e)]) = first r (before.foldl after ⟨ps, ps⟩).now := by
    rw [Props.EditSave.get_rel w numeric r _ rfl _ _ o2, Props.EditSave.first_same r _ _ b3]
  have g2 : getParameter r (els2 ++ [.item (.prim e)]) = paramOf r (before.foldl after ⟨ps, ps⟩).now := by
    rw [Props.EditSave.get_param_rel w numeric r e he _ _ o2, Props.EditSave.param_same r _ _ b3]
  cases k with
  | param => exact g2
  | component => exact g1
  | model => exact g1

/-! ### Setting several values -/

/-- What is set: how, the name, the value. -/
abbrev Sets := List (What × Str × Str)

def setAll (qs : List Part) (L : Sets) : List Part := L.foldl (fun q d => edited q (opOf d.1 d.2.1 d.2.2)) qs

theorem sweepable_all (k : What) (r v : Str) : ∀ (L : Sets) (qs : List Part), Sweepable w.word k r v qs → Sweepable w.word k r v (setAll qs L)
  | [], _, h => h
  | d :: L, qs, h => sweepable_all k r v L _ (sweepable_edited w k r v _ qs h)

theorem grown_all (ps : List Part) : ∀ (L : Sets) (qs : List Part), Grown ps qs → Grown ps (setAll qs L)
  | [], _, h => h
  | _ :: L, _, h => grown_all ps L _ (Props.SweepFiles.grown_edited _ _ _ h)

theorem dirs_sets : ∀ (L : Sets) (qs : List Part), (setAll qs L).filterMap directive = qs.filterMap directive
  | [], _ => rfl
  | _ :: L, qs => (dirs_sets L _).trans (Props.Session.dirs_edited qs _)

theorem given_other (k : What) (r : Str) (L : Sets) : ∀ qs : List Part, (∀ d ∈ L, Sweepable w.word d.1 d.2.1 d.2.2 qs) →
    (∀ d ∈ L, SameKind d.1 k → upper d.2.1 ≠ upper r) → given k r (setAll qs L) = given k r qs := by
  induction L with
  | nil => intro _ _ _; rfl
  | cons d L ih =>
    intro qs hS hn
    have h1 : given k r (setAll (edited qs (opOf d.1 d.2.1 d.2.2)) L) = given k r (edited qs (opOf d.1 d.2.1 d.2.2)) :=
      ih _ (fun d' hd' => sweepable_edited w _ _ _ _ qs (hS d' (List.mem_cons_of_mem _ hd'))) (fun d' hd' => hn d' (List.mem_cons_of_mem _ hd'))
    show given k r (setAll (edited qs (opOf d.1 d.2.1 d.2.2)) L) = _
    rw [h1]
    have hg := given_edit w d.1 k d.2.1 r d.2.2 qs (hS d List.mem_cons_self)
    by_cases sk : SameKind d.1 k
    · rw [hg.1 sk, if_neg (hn d List.mem_cons_self sk)]
    · exact hg.2 sk

theorem given_all (k : What) (r v : Str) (L : Sets) : ∀ qs : List Part, (∀ d ∈ L, Sweepable w.word d.1 d.2.1 d.2.2 qs) →
    (∃ d ∈ L, SameKind d.1 k ∧ upper d.2.1 = upper r) → (∀ d ∈ L, SameKind d.1 k → upper d.2.1 = upper r → d.2.2 = v) → given k r (setAll qs L) = some v := by
  induction L with
  | nil => intro _ _ h _; obtain ⟨d, hd, _⟩ := h; simp at hd
  | cons d L ih =>
    intro qs hS hex hv
    show given k r (setAll (edited qs (opOf d.1 d.2.1 d.2.2)) L) = _
    have hS' : ∀ d' ∈ L, Sweepable w.word d'.1 d'.2.1 d'.2.2 (edited qs (opOf d.1 d.2.1 d.2.2)) :=
      fun d' hd' => sweepable_edited w _ _ _ _ qs (hS d' (List.mem_cons_of_mem _ hd'))
    by_cases hL : ∃ d ∈ L, SameKind d.1 k ∧ upper d.2.1 = upper r
    · exact ih _ hS' hL (fun d' hd' => hv d' (List.mem_cons_of_mem _ hd'))
    · rw [given_other w k r L _ hS' (fun d' hd' sk hu => hL ⟨d', hd', sk, hu⟩)]
      obtain ⟨d', hd', sk, hu⟩ := hex
      rcases List.mem_cons.1 hd' with rfl | hd''
      · rw [(given_edit w d'.1 k d'.2.1 r d'.2.2 qs (hS d' hd')).1 sk, if_pos hu, hv d' hd' sk hu]
      · exact absurd ⟨d', hd'', sk, hu⟩ hL

/-- Setting as steps of a program. -/
def stepOf (d : What × Str × Str) : Step := .change (.edit (opOf d.1 d.2.1 d.2.2))

theorem op_ne (k : What) (r v : Str) : opOf k r v ≠ .reopen := by cases k <;> simp [opOf]

theorem after_set (n : Nets) (d : What × Str × Str) : after n (stepOf d) = ⟨n.base, edited n.now (opOf d.1 d.2.1 d.2.2)⟩ := by
  unfold stepOf
  rcases d with ⟨k, r, v⟩
  cases k <;> rfl

theorem after_sets : ∀ (L : Sets) (n : Nets), (L.map stepOf).foldl after n = ⟨n.base, setAll n.now L⟩
  | [], _ => rfl
  | d :: L, n => by
    rw [List.map_cons, List.foldl_cons, after_set, after_sets L]; rfl

theorem runs_sets (L : Sets) : runs (L.map stepOf) = 0 := by
  induction L with
  | nil => rfl
  | cons d L ih => rw [List.map_cons, runs_cons, ih]; rfl

theorem act_set (d : What × Str × Str) : (stepOf d).act = .op (setOp d.1 d.2.1 d.2.2) := by
  rcases d with ⟨k, r, v⟩
  cases k <;> rfl

theorem allowed_set (k : What) (r v : Str) (name : Str → Prop) (qs : List Part) (h : Sweepable w.word k r v qs) : Allowed w.word name qs (.edit (opOf k r v)) := by
  cases k <;> exact h

theorem program_append (name : Str → Prop) : ∀ (a b : List Step) (n : Nets), Program w.word name n a → Program w.word name (a.foldl after n) b → Program w.word name n (a ++ b)
  | [], _, _, _, h => h
  | _ :: a, b, _, h1, h2 => ⟨h1.1, program_append name a b _ h1.2 h2⟩

theorem program_sets (name : Str → Prop) : ∀ (L : Sets) (n : Nets), (∀ d ∈ L, Sweepable w.word d.1 d.2.1 d.2.2 n.now) → Program w.word name n (L.map stepOf)
  | [], _, _ => trivial
  | d :: L, n, h => by
    refine ⟨allowed_set w d.1 d.2.1 d.2.2 name n.now (h d List.mem_cons_self), ?_⟩
    rw [after_set]
    exact program_sets name L _ (fun d' hd' => sweepable_edited w _ _ _ _ _ (h d' (List.mem_cons_of_mem _ hd')))

theorem acts_sets (L : Sets) : (L.map stepOf).map Step.act = L.map (fun d => Act.op (setOp d.1 d.2.1 d.2.2)) := by
  rw [List.map_map]
  exact List.map_congr_left (fun d _ => act_set d)

/-! ### The loop over the bits -/

/-- The values set for a setting. -/
def pick (a : Elem) (b : Bool) : What × Str × Str := (a.kind, a.name, if b then a.on else a.off)

theorem mask (s i : Nat) : decide (s &&& (1 <<< i) ≠ 0) = s.testBit i := by
  rw [Nat.one_shiftLeft, Bool.eq_iff_iff, decide_eq_true_iff]
  constructor
  · intro h
    by_contra hb
    apply h
    apply Nat.eq_of_testBit_eq
    intro j
    rw [Nat.testBit_and, Nat.testBit_two_pow, Nat.zero_testBit]
    by_cases hj : i = j
    · subst hj; simpa using hb
    · simp [hj]
  · intro h h0
    have := congrArg (Nat.testBit · i) h0
    simp [Nat.testBit_and, h] at this

theorem flipsF_ok (els : List Elem) (s : Nat) : ∀ (fuel bits idx : Nat), bits ≤ fuel → (∀ i, bits.testBit i = true → idx + i < els.length) →
    ∃ L : Sets, flipsF els s fuel bits idx = some (L.map (fun d => Act.op (setOp d.1 d.2.1 d.2.2))) ∧
      ∀ d, d ∈ L ↔ ∃ i a, bits.testBit i = true ∧ els[idx + i]? = some a ∧ d = pick a (s.testBit (idx + i)) := by
  intro fuel
  induction fuel with
  | zero =>
    intro bits idx hb _
    have : bits = 0 := by omega
    subst this
    exact ⟨[], rfl, by simp⟩
  | succ fuel ih =>
    intro bits idx hb hlt
    by_cases h0 : bits = 0
    · subst h0
      exact ⟨[], by simp [flipsF], by simp⟩
    · have hsh : bits >>> 1 = bits / 2 := by rw [Nat.shiftRight_eq_div_pow]
      obtain ⟨L, g1, g2⟩ := ih (bits >>> 1) (idx + 1) (by rw [hsh]; omega) (by
        intro i hi
        have := hlt (i + 1) (by rw [← hi, Nat.testBit_shiftRight, Nat.add_comm])
        omega)
      have hrest : ∀ d, d ∈ L ↔ ∃ i a, bits.testBit (i + 1) = true ∧ els[idx + (i + 1)]? = some a ∧ d = pick a (s.testBit (idx + (i + 1))) := by
        intro d
        rw [g2]
        constructor
        · rintro ⟨i, a, h1, h2, h3⟩
          have e1 : idx + 1 + i = idx + (i + 1) := by omega
          rw [e1] at h2 h3
          exact ⟨i, a, by rw [← h1, Nat.testBit_shiftRight, Nat.add_comm], h2, h3⟩
        · rintro ⟨i, a, h1, h2, h3⟩
          have e1 : idx + (i + 1) = idx + 1 + i := by omega
          rw [e1] at h2 h3
          exact ⟨i, a, by rw [← h1, Nat.testBit_shiftRight, Nat.add_comm], h2, h3⟩
      have hbit : (bits &&& 1 = 1) ↔ bits.testBit 0 = true := by
        rw [Nat.and_one_is_mod, Nat.testBit_zero, decide_eq_true_iff]
      by_cases h1 : bits &&& 1 = 1
      · have hlen := hlt 0 (hbit.1 h1)
        obtain ⟨a, ha⟩ : ∃ a, els[idx]? = some a := ⟨_, List.getElem?_eq_getElem (by omega)⟩
        refine ⟨pick a (s.testBit idx) :: L, ?_, ?_⟩
        · rw [flipsF, if_neg h0, if_pos h1, ha, Option.bind_some, g1, Option.map_some, List.map_cons]
          congr 3
          show setOp a.kind a.name _ = setOp a.kind a.name _
          congr 1
          rw [← mask]
          by_cases c : s &&& (1 <<< idx) ≠ 0
          · rw [if_pos c]; simp [c, pick]
          · rw [if_neg c]; simp [c, pick]
        · intro d
          rw [List.mem_cons, hrest]
          constructor
          · rintro (rfl | ⟨i, b, q⟩)
            · exact ⟨0, a, hbit.1 h1, ha, rfl⟩
            · exact ⟨i + 1, b, q⟩
          · rintro ⟨i, b, q1, q2, q3⟩
            cases i with
            | zero =>
              left
              rw [Nat.add_zero, ha] at q2
              injection q2 with q2
              subst q2
              exact q3
            | succ i => exact .inr ⟨i, b, q1, q2, q3⟩
      · refine ⟨L, ?_, ?_⟩
        · rw [flipsF, if_neg h0, if_neg h1]; exact g1
        · intro d
          rw [hrest]
          constructor
          · rintro ⟨i, b, q⟩; exact ⟨i + 1, b, q⟩
          · rintro ⟨i, b, q1, q2, q3⟩
            cases i with
            | zero => exact absurd (hbit.2 q1) h1
            | succ i => exact ⟨i, b, q1, q2, q3⟩

/-! ### The loop over the runs -/

/-- Whether the bit `i` was written in one of the runs `0 … k`. -/
def touched : (last : Nat) → (settings : List Nat) → (k i : Nat) → Bool
  | _, [], _, _ => false
  | last, s :: _, 0, i => (s ^^^ last).testBit i
  | last, s :: ss, k + 1, i => (s ^^^ last).testBit i || touched s ss k i

/-- The netlist between two runs: an element that was written has the value of its bit, everything else is as in `N`. -/
structure Mid (els : List Elem) (N : List Part) (t : Nat → Bool) (last : Nat) (now : List Part) : Prop where
  elems : ∀ (i : Nat) (a : Elem), els[i]? = some a → given a.kind a.name now = if t i then some (if last.testBit i then a.on else a.off) else given a.kind a.name N
  others : ∀ k r, Other els k r → given k r now = given k r N
  grown : Grown N now
  dirs : now.filterMap directive = N.filterMap directive
  on : ∀ a ∈ els, Sweepable w.word a.kind a.name a.on now
  off : ∀ a ∈ els, Sweepable w.word a.kind a.name a.off now

theorem pick_sweepable {els : List Elem} {N : List Part} {t : Nat → Bool} {last : Nat} {now : List Part} (h : Mid w els N t last now) (a : Elem) (ha : a ∈ els) (b : Bool) :
    Sweepable w.word a.kind a.name (if b then a.on else a.off) now := by
  cases b with
  | true => exact h.on a ha
  | false => exact h.off a ha

/-- One run: the values of the bits that changed, then the parameter `run`. -/
theorem mid_turn (els : List Elem) (N : List Part) (word' : Char → Bool) (hE : Elements word' els N) (t : Nat → Bool) (last s : Nat) (now : List Part) (h : Mid w els N t last now) (L : Sets)
    (hL : ∀ d, d ∈ L ↔ ∃ i a, (s ^^^ last).testBit i = true ∧ els[i]? = some a ∧ d = pick a (s.testBit i)) (x : Str) (hx : ParamSet runName x) :
    Mid w els N (fun i => t i || (s ^^^ last).testBit i) s (setAll now (L ++ [(.param, runName, x)])) ∧ given .param runName (setAll now (L ++ [(.param, runName, x)])) = some x := by
  have hS : ∀ d ∈ L ++ [(What.param, runName, x)], Sweepable w.word d.1 d.2.1 d.2.2 now := by
    intro d hd
    rcases List.mem_append.1 hd with hd | hd
    · obtain ⟨i, a, _, q2, rfl⟩ := (hL d).1 hd
      exact pick_sweepable w h a (List.mem_of_getElem? q2) _
    · rw [List.mem_singleton.1 hd]; exact hx
  have notRun : ∀ (i : Nat) (a : Elem), els[i]? = some a → SameKind .param a.kind → upper runName ≠ upper a.name := by
    intro i a ha sk
    exact fun hu => hE.notRun a (List.mem_of_getElem? ha) (sk.1 rfl) hu.symm
  refine ⟨⟨?_, ?_, grown_all _ _ _ h.grown, (dirs_sets _ _).trans h.dirs, fun a ha => sweepable_all w _ _ _ _ _ (h.on a ha), fun a ha => sweepable_all w _ _ _ _ _ (h.off a ha)⟩, ?_⟩
  · intro i a ha
    by_cases hb : (s ^^^ last).testBit i = true
    · rw [if_pos (by simp [hb])]
      refine given_all w a.kind a.name _ _ now hS ?_ ?_
      · exact ⟨pick a (s.testBit i), List.mem_append_left _ ((hL _).2 ⟨i, a, hb, ha, rfl⟩), Iff.rfl, rfl⟩
      · intro d hd sk hu
        rcases List.mem_append.1 hd with hd | hd
        · obtain ⟨j, b, _, q2, rfl⟩ := (hL d).1 hd
          have hij := hE.distinct j i b a q2 ha sk hu
          subst hij
          rw [ha] at q2
          injection q2 with q2
          subst q2
          rfl
        · rw [List.mem_singleton.1 hd] at sk hu
          exact absurd hu (notRun i a ha sk)
    · rw [given_other w a.kind a.name _ now hS ?_, h.elems i a ha]
      · have hb' : (s ^^^ last).testBit i = false := by simpa using hb
        have : s.testBit i = last.testBit i := by simpa [Nat.testBit_xor] using hb'
        simp only [hb', Bool.or_false, this]
      · intro d hd sk hu
        rcases List.mem_append.1 hd with hd | hd
        · obtain ⟨j, b, q1, q2, rfl⟩ := (hL d).1 hd
          have hij := hE.distinct j i b a q2 ha sk hu
          subst hij
          exact hb q1
        · rw [List.mem_singleton.1 hd] at sk hu
          exact notRun i a ha sk hu
  · intro k r ho
    rw [given_other w k r _ now hS ?_, h.others k r ho]
    intro d hd sk hu
    rcases List.mem_append.1 hd with hd | hd
    · obtain ⟨j, b, _, q2, rfl⟩ := (hL d).1 hd
      exact ho.1 b (List.mem_of_getElem? q2) sk hu
    · rw [List.mem_singleton.1 hd] at sk hu
      exact ho.2 (sk.1 rfl) hu
  · refine given_all w .param runName x _ now hS ⟨_, List.mem_append_right _ (List.mem_singleton.2 rfl), Iff.rfl, rfl⟩ ?_
    intro d hd sk hu
    rcases List.mem_append.1 hd with hd | hd
    · obtain ⟨j, b, _, q2, rfl⟩ := (hL d).1 hd
      exact absurd hu (hE.notRun b (List.mem_of_getElem? q2) (sk.2 rfl))
    · rw [List.mem_singleton.1 hd]

theorem passes_ok (els : List Elem) (text : Int → Str) (N : List Part) (word' : Char → Bool) (hE : Elements word' els N) (name : Str → Prop) :
    ∀ (settings : List Nat) (last n : Nat) (t : Nat → Bool) (nets : Nets), last < 2 ^ els.length → (∀ s ∈ settings, s < 2 ^ els.length) →
      (∀ j < settings.length, ParamSet runName (text (n + j : Nat))) → Mid w els N t last nets.now →
      ∃ steps, passes els text last settings n = some (steps.map Step.act) ∧ Program w.word name nets steps ∧ runs steps = settings.length ∧
        ∀ (k s : Nat), settings[k]? = some s → ∃ before later, steps = before ++ .run :: later ∧ runs before = k ∧
          Mid w els N (fun i => t i || touched last settings k i) s (before.foldl after nets).now ∧ given .param runName (before.foldl after nets).now = some (text (n + k : Nat)) := by
  intro settings
  induction settings with
  | nil => intro last n t nets _ _ _ _; exact ⟨[], rfl, trivial, rfl, by simp⟩
  | cons s ss ih =>
    intro last n t nets hlast hset htext hm
    have hs : s < 2 ^ els.length := hset s List.mem_cons_self
    obtain ⟨L, g1, g2⟩ := flipsF_ok els s (s ^^^ last) (s ^^^ last) 0 (Nat.le_refl _) (by
      intro i hi
      by_contra hlen
      rw [Nat.zero_add, Nat.not_lt] at hlen
      have hp : 2 ^ els.length ≤ 2 ^ i := Nat.pow_le_pow_right (by omega) hlen
      rw [Nat.testBit_xor, Nat.testBit_lt_two_pow (by omega), Nat.testBit_lt_two_pow (by omega)] at hi
      simp at hi)
    simp only [Nat.zero_add] at g2
    have hx : ParamSet runName (text n) := htext 0 (by simp)
    obtain ⟨m1, m2⟩ := mid_turn w els N word' hE t last s nets.now hm L g2 (text n) hx
    obtain ⟨steps, i1, i2, i3, i4⟩ := ih s (n + 1) (fun i => t i || (s ^^^ last).testBit i) ⟨nets.base, setAll nets.now (L ++ [(.param, runName, text n)])⟩ hs
      (fun s' hs' => hset s' (List.mem_cons_of_mem _ hs')) (by
        intro j hj
        have := htext (j + 1) (by simpa using hj)
        have e1 : n + 1 + j = n + (j + 1) := by omega
        rw [e1]; exact this) m1
    have hA : (L ++ [(What.param, runName, text n)]).map stepOf = L.map stepOf ++ [stepOf (.param, runName, text n)] := by simp
    have hfold : ((L ++ [(What.param, runName, text n)]).map stepOf).foldl after nets = ⟨nets.base, setAll nets.now (L ++ [(.param, runName, text n)])⟩ := after_sets _ _
    refine ⟨(L ++ [(What.param, runName, text n)]).map stepOf ++ .run :: steps, ?_, ?_, ?_, ?_⟩
    · rw [passes, flips, g1, i1]
      simp only [hA, List.map_append, List.map_cons, List.map_nil, List.append_assoc, List.cons_append, List.nil_append, acts_sets]
      rfl
    · refine program_append w name _ _ nets (program_sets w name _ nets ?_) ?_
      · intro d hd
        rcases List.mem_append.1 hd with hd | hd
        · obtain ⟨i, a, _, q2, rfl⟩ := (g2 d).1 hd
          exact pick_sweepable w hm a (List.mem_of_getElem? q2) _
        · rw [List.mem_singleton.1 hd]; exact hx
      · rw [hfold]; exact ⟨trivial, i2⟩
    · rw [runs_append, runs_sets, runs_cons, i3, List.length_cons]; show 0 + (1 + _) = _; omega
    · intro k s' hk
      cases k with
      | zero =>
        simp only [List.getElem?_cons_zero, Option.some.injEq] at hk
        subst hk
        exact ⟨_, steps, rfl, runs_sets _, by rw [hfold]; exact m1, by rw [hfold]; exact m2⟩
      | succ k =>
        rw [List.getElem?_cons_succ] at hk
        obtain ⟨before, later, j1, j2, j3, j4⟩ := i4 k s' hk
        refine ⟨(L ++ [(What.param, runName, text n)]).map stepOf ++ .run :: before, later, by rw [j1]; simp, ?_, ?_, ?_⟩
        · rw [runs_append, runs_sets, runs_cons, j2]; show 0 + (1 + k) = _; omega
        · rw [List.foldl_append, hfold, List.foldl_cons]
          have : (fun i => (t i || (s ^^^ last).testBit i) || touched s ss k i) = (fun i => t i || touched last (s :: ss) (k + 1) i) := by
            funext i; simp only [touched, Bool.or_assoc]
          rw [← this]; exact j3
        · rw [List.foldl_append, hfold, List.foldl_cons]
          have e1 : n + (k + 1) = n + 1 + k := by omega
          rw [e1]; exact j4

/-! ### The analyses -/

theorem after_setup : ∀ (setup : List Change) (n : Nets), (∀ c ∈ setup, ∀ o, c = .edit o → o ≠ .reopen) →
    (setup.map Step.change).foldl after n = ⟨n.base, setup.foldl changed n.now⟩
  | [], _, _ => rfl
  | c :: cs, n, h => by
    have en : after n (.change c) = ⟨n.base, changed n.now c⟩ := by
      cases c with
      | edit o => cases o <;> first | rfl | exact absurd rfl (h _ List.mem_cons_self _ rfl)
      | _ => rfl
    rw [List.map_cons, List.foldl_cons, en, after_setup cs _ (fun c hc => h c (List.mem_cons_of_mem _ hc))]; rfl

theorem program_setup (name : Str → Prop) : ∀ (setup : List Change) (n : Nets), Spec.Session.Session w.word name n.now setup → (∀ c ∈ setup, ∀ o, c = .edit o → o ≠ .reopen) →
    Program w.word name n (setup.map .change)
  | [], _, _, _ => trivial
  | c :: cs, n, hs, h => by
    have en : after n (.change c) = ⟨n.base, changed n.now c⟩ := by
      cases c with
      | edit o => cases o <;> first | rfl | exact absurd rfl (h _ List.mem_cons_self _ rfl)
      | _ => rfl
    refine ⟨hs.1, ?_⟩
    rw [en]
    exact program_setup name cs _ hs.2 (fun c hc => h c (List.mem_cons_of_mem _ hc))

theorem runs_setup (setup : List Change) : runs (setup.map .change) = 0 := by
  induction setup with
  | nil => rfl
  | cons c cs ih => rw [List.map_cons, runs_cons, ih]; rfl

theorem acts_setup (setup : List Change) : (setup.map Step.change).map Step.act = (setup.map Change.op).map Act.op := by
  rw [List.map_map, List.map_map]; rfl

theorem meas_directive : Directive (asLine meas) := by
  refine ⟨by decide +kernel, by decide +kernel, by unfold Spec.NetSave.Tidy; decide +kernel,
    ⟨⟨meas, by decide +kernel, .inr (.inl ⟨Props.EditSave.ex_unb _ (by decide +kernel) (by decide +kernel), by decide +kernel⟩)⟩, by decide +kernel, by decide +kernel⟩⟩

theorem given_directive (k : What) (r d : Str) (qs : List Part) : given k r (addDirective d qs) = given k r qs := by
  have := Props.Session.values_directive qs d
  cases k with
  | param => exact this.2 r
  | component => exact this.1 r
  | model => exact this.1 r

include w in
/-- What the netlist of the nominal run says. -/
theorem given_nominal (text : Int → Str) (ps : List Part) (setup : List Change) (hx : ParamSet runName (text (-1))) :
    given .param runName (Spec.RunSnap.nominal text ps setup) = some (text (-1)) ∧
    ∀ k r, (k = .param → upper runName ≠ upper r) → given k r (Spec.RunSnap.nominal text ps setup) = given k r (setup.foldl changed ps) := by
  have hS : ∀ d ∈ [(What.param, runName, text (-1))], Sweepable w.word d.1 d.2.1 d.2.2 (setup.foldl changed ps) := by
    intro d hd; rw [List.mem_singleton.1 hd]; exact hx
  constructor
  · show given .param runName (addDirective (asLine meas) (setAll (setup.foldl changed ps) [(.param, runName, text (-1))])) = _
    rw [given_directive]
    exact given_all w .param runName (text (-1)) [(.param, runName, text (-1))] _ hS ⟨_, List.mem_singleton.2 rfl, Iff.rfl, rfl⟩ (by intro d hd _ _; rw [List.mem_singleton.1 hd])
  · intro k r hr
    show given k r (addDirective (asLine meas) (setAll (setup.foldl changed ps) [(.param, runName, text (-1))])) = _
    rw [given_directive]
    refine given_other w k r [(.param, runName, text (-1))] _ hS ?_
    intro d hd sk
    rw [List.mem_singleton.1 hd] at sk ⊢
    exact hr (sk.1 rfl)

theorem grown_of_same : ∀ qs ps : List Part, List.Forall₂ Part.Same qs ps → ∀ N, Grown N qs → Grown N ps :=
  fun qs ps h N g => Props.SweepFiles.grown_same N qs ps g h

include he hl ht in
/-- The runs of a loop over settings. -/
theorem loop_files (ps : List Part) (hok : ∀ p ∈ ps, p.Ok w.word (NameOk numeric)) (runno : Nat) (els : List Elem) (text : Int → Str) (setup : List Change)
    (hS : Setup w.word (NameOk numeric) ps setup) (hE : Elements w.word els (Spec.RunSnap.nominal text ps setup)) (last : Nat) (settings : List Nat) (hlast : last < 2 ^ els.length)
    (hset : ∀ s ∈ settings, s < 2 ^ els.length) (hx : ∀ r : Int, -1 ≤ r → r < settings.length → ParamSet runName (text r)) :
    ∃ as, passes els text last settings 0 = some as ∧ ∃ st s, openText w numeric shown (fileText ps e) = some st ∧
      acts w numeric shown included circuit ⟨st, fileText ps e, runno, []⟩ (Model.RunSnap.nominal text (setup.map Change.op) ++ as) = some s ∧ s.folder.length = settings.length + 1 ∧
      (∃ t st' ps', content s.folder (Model.Runner.runFileName circuit (runno + 1)) = some t ∧ openText w numeric shown t = some st' ∧ t = fileText ps' e ∧
        List.Forall₂ Part.Same (Spec.RunSnap.nominal text ps setup) ps' ∧ getParameter runName st' = some (text (-1)) ∧
        ∀ k r, (k = .param → upper runName ≠ upper r) → asked k r st' = given k r (setup.foldl changed ps)) ∧
      ∀ (k x : Nat), settings[k]? = some x → ∃ t st' ps', content s.folder (Model.Runner.runFileName circuit (runno + k + 2)) = some t ∧ openText w numeric shown t = some st' ∧ t = fileText ps' e ∧
        Grown (Spec.RunSnap.nominal text ps setup) ps' ∧ ps'.filterMap directive = (Spec.RunSnap.nominal text ps setup).filterMap directive ∧ getParameter runName st' = some (text k) ∧
        (∀ (i : Nat) (a : Elem), els[i]? = some a → asked a.kind a.name st' =
          if touched last settings k i then some (if x.testBit i then a.on else a.off) else given a.kind a.name (setup.foldl changed ps)) ∧
        ∀ k' r, Other els k' r → asked k' r st' = given k' r (setup.foldl changed ps) := by
  have hm1 : ParamSet runName (text (-1)) := hx (-1) (by omega) (by omega)
  have hN := given_nominal w text ps setup hm1
  have hmid : Mid w els (Spec.RunSnap.nominal text ps setup) (fun _ => false) last (Spec.RunSnap.nominal text ps setup) :=
    ⟨fun _ _ _ => by simp, fun _ _ _ => rfl, Props.SweepFiles.grown_refl _, rfl, hE.on, hE.off⟩
  obtain ⟨steps, g1, g2, g3, g4⟩ := passes_ok w els text (Spec.RunSnap.nominal text ps setup) w.word hE (NameOk numeric) settings last 0 (fun _ => false) ⟨ps, Spec.RunSnap.nominal text ps setup⟩
    hlast hset (by intro j hj; exact hx _ (by omega) (by omega)) hmid
  refine ⟨_, g1, ?_⟩
  let head : List Step := .reset :: (setup.map Step.change ++ [stepOf (.param, runName, text (-1)), .change (.instruct meas)])
  have hfold : head.foldl after ⟨ps, ps⟩ = ⟨ps, Spec.RunSnap.nominal text ps setup⟩ := by
    show (setup.map Step.change ++ [stepOf (.param, runName, text (-1)), .change (.instruct meas)]).foldl after ⟨ps, ps⟩ = _
    rw [List.foldl_append, after_setup setup _ hS.2, List.foldl_cons, after_set]; rfl
  have hruns : runs head = 0 := by
    show runs (Step.reset :: (setup.map Step.change ++ [stepOf (.param, runName, text (-1)), .change (.instruct meas)])) = 0
    rw [runs_cons, runs_append, runs_setup]; rfl
  have hprog : Program w.word (NameOk numeric) ⟨ps, ps⟩ head := by
    refine ⟨trivial, program_append w _ (setup.map Step.change) _ _ (program_setup w _ setup _ hS.1 hS.2) ?_⟩
    rw [show after ⟨ps, ps⟩ Step.reset = ⟨ps, ps⟩ from rfl, after_setup setup _ hS.2]
    refine ⟨allowed_set w .param runName (text (-1)) _ _ hm1, ?_, trivial⟩
    exact meas_directive
  have hacts : (head ++ .run :: steps).map Step.act = Model.RunSnap.nominal text (setup.map Change.op) ++ steps.map Step.act := by
    show (Step.reset :: (setup.map Step.change ++ [stepOf (.param, runName, text (-1)), .change (.instruct meas)]) ++ .run :: steps).map Step.act = _
    simp only [List.map_append, List.map_cons, List.cons_append, acts_setup]
    simp [Model.RunSnap.nominal, Step.act, stepOf, opOf, Change.op]
  obtain ⟨st, s, h1, h2, h3, h4⟩ := C110_snapshot w numeric shown included circuit e he hl ht ps hok runno (head ++ .run :: steps) (program_append w _ _ _ _ hprog (by rw [hfold]; exact ⟨trivial, g2⟩))
  rw [hacts] at h2
  refine ⟨st, s, h1, h2, ?_, ?_, ?_⟩
  · rw [h3, runs_append, hruns, runs_cons, g3]; show 0 + (1 + _) = _; omega
  · obtain ⟨t, st', ps', k1, k2, k3, k4, k5⟩ := h4 head steps rfl
    rw [hruns] at k1
    rw [hfold] at k4 k5
    exact ⟨t, st', ps', k1, k2, k3, k4, (k5 .param runName).trans hN.1, fun k r hr => (k5 k r).trans (hN.2 k r hr)⟩
  · intro k x hk
    obtain ⟨before, later, j1, j2, j3, j4⟩ := g4 k x hk
    obtain ⟨t, st', ps', k1, k2, k3, k4, k5⟩ := h4 (head ++ .run :: before) later (by rw [j1]; simp)
    have hr : runs (head ++ .run :: before) = k + 1 := by
      rw [runs_append, hruns, runs_cons, j2]; show 0 + (1 + k) = _; omega
    have hf : (head ++ .run :: before).foldl after ⟨ps, ps⟩ = before.foldl after ⟨ps, Spec.RunSnap.nominal text ps setup⟩ := by
      rw [List.foldl_append, hfold]; rfl
    rw [hr] at k1
    rw [hf] at k4 k5
    refine ⟨t, st', ps', k1, k2, k3, grown_of_same _ _ k4 _ j3.grown, (Props.Session.dirs_same _ _ k4).trans j3.dirs, ?_, ?_, ?_⟩
    · rw [← show asked .param runName st' = getParameter runName st' from rfl, k5, j4, Nat.zero_add]
    · intro i a ha
      rw [k5, j3.elems i a ha, Bool.false_or]
      split
      · rfl
      · exact hN.2 _ _ (fun hk hu => hE.notRun a (List.mem_of_getElem? ha) hk hu.symm)
    · intro k' r ho
      rw [k5, j3.others k' r ho]
      exact hN.2 _ _ ho.2

include he hl ht in
/-- C110: the netlist files of a worst-case analysis of the elements `els`. There is one for the nominal run and one for each of the 2^n corners: the file of run r says for element i its `on` value if bit i
of r is set and its `off` value otherwise, the parameter `run` is r, and every other component and parameter has the value of the netlist with the recorded instructions; apart from values and
the lines of new parameters it is the nominal netlist line by line, with the same directives. -/
theorem C110_worst_case (ps : List Part) (hok : ∀ p ∈ ps, p.Ok w.word (NameOk numeric)) (runno : Nat) (els : List Elem) (text : Int → Str) (setup : List Change)
    (hS : Setup w.word (NameOk numeric) ps setup) (hE : Elements w.word els (Spec.RunSnap.nominal text ps setup)) (hx : ∀ r : Int, -1 ≤ r → r < 2 ^ els.length → ParamSet runName (text r)) :
    ∃ as st s, worstCase els text (setup.map Change.op) = some as ∧ openText w numeric shown (fileText ps e) = some st ∧
      acts w numeric shown included circuit ⟨st, fileText ps e, runno, []⟩ as = some s ∧ s.folder.length = 2 ^ els.length + 1 ∧
      (∃ t st' ps', content s.folder (Model.Runner.runFileName circuit (runno + 1)) = some t ∧ openText w numeric shown t = some st' ∧ t = fileText ps' e ∧
        List.Forall₂ Part.Same (Spec.RunSnap.nominal text ps setup) ps' ∧ getParameter runName st' = some (text (-1)) ∧
        ∀ k r, (k = .param → upper runName ≠ upper r) → asked k r st' = given k r (setup.foldl changed ps)) ∧
      ∀ r < 2 ^ els.length, ∃ t st' ps', content s.folder (Model.Runner.runFileName circuit (runno + r + 2)) = some t ∧ openText w numeric shown t = some st' ∧ t = fileText ps' e ∧
        Grown (Spec.RunSnap.nominal text ps setup) ps' ∧ ps'.filterMap directive = (Spec.RunSnap.nominal text ps setup).filterMap directive ∧ getParameter runName st' = some (text r) ∧
        (∀ (i : Nat) (a : Elem), els[i]? = some a → asked a.kind a.name st' = some (if r.testBit i then a.on else a.off)) ∧
        ∀ k x, Other els k x → asked k x st' = given k x (setup.foldl changed ps) := by
  have hp : 0 < 2 ^ els.length := Nat.two_pow_pos _
  obtain ⟨as, h1, st, s, h2, h3, h4, h5, h6⟩ := loop_files w numeric shown included circuit e he hl ht ps hok runno els text setup hS hE (2 ^ els.length - 1) (List.range (2 ^ els.length)) (by omega)
    (fun s hs => List.mem_range.1 hs) (by simpa using hx)
  refine ⟨_, st, s, by rw [worstCase, h1]; rfl, h2, h3, by simpa using h4, h5, ?_⟩
  intro r hr
  obtain ⟨t, st', ps', k1, k2, k3, k4, k5, k6, k7, k8⟩ := h6 r r (by simp [hr])
  refine ⟨t, st', ps', k1, k2, k3, k4, k5, k6, ?_, k8⟩
  intro i a ha
  rw [k7 i a ha, if_pos]
  have hi : i < els.length := (List.getElem?_eq_some_iff.1 ha).1
  obtain ⟨m, hm⟩ : ∃ m, 2 ^ els.length = m + 1 := ⟨2 ^ els.length - 1, by omega⟩
  have h0 : (0 ^^^ (2 ^ els.length - 1)).testBit i = true := by
    rw [Nat.zero_xor, Nat.testBit_two_pow_sub_one]; simpa using hi
  have : List.range (2 ^ els.length) = 0 :: (List.range m).map Nat.succ := by rw [hm, List.range_succ_eq_map]
  rw [this]
  cases r with
  | zero => exact h0
  | succ r => simp only [touched, h0, Bool.true_or]

theorem touched_one (k i : Nat) : ∀ (len m last : Nat), (∀ j ≥ m, last.testBit j = false) → k < len → m ≤ i →
    touched last ((List.range' m len).map (2 ^ ·)) k i = decide (i ≤ m + k) := by
  induction k with
  | zero =>
    intro len m last hl hk hi
    obtain ⟨len, rfl⟩ : ∃ l, len = l + 1 := ⟨len - 1, by omega⟩
    rw [List.range'_succ, List.map_cons, touched, Nat.testBit_xor, hl i hi, Bool.xor_false, Nat.testBit_two_pow]
    rw [decide_eq_decide]; omega
  | succ k ih =>
    intro len m last hl hk hi
    obtain ⟨len, rfl⟩ : ∃ l, len = l + 1 := ⟨len - 1, by omega⟩
    rw [List.range'_succ, List.map_cons, touched, Nat.testBit_xor, hl i hi, Bool.xor_false, Nat.testBit_two_pow]
    by_cases h : m = i
    · subst h; simp
    · rw [ih len (m + 1) (2 ^ m) (by intro j hj; rw [Nat.testBit_two_pow]; simp; omega) (by omega) (by omega)]
      have : decide (m = i) = false := by simpa using h
      rw [this, Bool.false_or, decide_eq_decide]; omega

include he hl ht in
/-- C110: the netlist files of a quick sensitivity analysis: the nominal run, then one run per element; in the file of run r only element r has its `on` value, the elements before it have their `off`
value (the text of the nominal value), those after it and everything else are as in the netlist with the recorded instructions. -/
theorem C110_sensitivity (ps : List Part) (hok : ∀ p ∈ ps, p.Ok w.word (NameOk numeric)) (runno : Nat) (els : List Elem) (text : Int → Str) (setup : List Change)
    (hS : Setup w.word (NameOk numeric) ps setup) (hE : Elements w.word els (Spec.RunSnap.nominal text ps setup)) (hx : ∀ r : Int, -1 ≤ r → r < els.length → ParamSet runName (text r)) :
    ∃ as st s, quickSens els text (setup.map Change.op) = some as ∧ openText w numeric shown (fileText ps e) = some st ∧
      acts w numeric shown included circuit ⟨st, fileText ps e, runno, []⟩ as = some s ∧ s.folder.length = els.length + 1 ∧
      (∃ t st' ps', content s.folder (Model.Runner.runFileName circuit (runno + 1)) = some t ∧ openText w numeric shown t = some st' ∧ t = fileText ps' e ∧
        List.Forall₂ Part.Same (Spec.RunSnap.nominal text ps setup) ps' ∧ getParameter runName st' = some (text (-1)) ∧
        ∀ k r, (k = .param → upper runName ≠ upper r) → asked k r st' = given k r (setup.foldl changed ps)) ∧
      ∀ r < els.length, ∃ t st' ps', content s.folder (Model.Runner.runFileName circuit (runno + r + 2)) = some t ∧ openText w numeric shown t = some st' ∧ t = fileText ps' e ∧
        Grown (Spec.RunSnap.nominal text ps setup) ps' ∧ ps'.filterMap directive = (Spec.RunSnap.nominal text ps setup).filterMap directive ∧ getParameter runName st' = some (text r) ∧
        (∀ (i : Nat) (a : Elem), els[i]? = some a → asked a.kind a.name st' =
          if i < r then some a.off else if i = r then some a.on else given a.kind a.name (setup.foldl changed ps)) ∧
        ∀ k x, Other els k x → asked k x st' = given k x (setup.foldl changed ps) := by
  have hp : 0 < 2 ^ els.length := Nat.two_pow_pos _
  obtain ⟨as, h1, st, s, h2, h3, h4, h5, h6⟩ := loop_files w numeric shown included circuit e he hl ht ps hok runno els text setup hS hE 0 ((List.range els.length).map (2 ^ ·)) hp
    (by
      intro s hs
      obtain ⟨j, hj, rfl⟩ := List.mem_map.1 hs
      exact Nat.pow_lt_pow_right (by omega) (List.mem_range.1 hj)) (by simpa using hx)
  refine ⟨_, st, s, by rw [quickSens, h1]; rfl, h2, h3, by simpa using h4, h5, ?_⟩
  intro r hr
  obtain ⟨t, st', ps', k1, k2, k3, k4, k5, k6, k7, k8⟩ := h6 r (2 ^ r) (by simp [hr])
  refine ⟨t, st', ps', k1, k2, k3, k4, k5, k6, ?_, k8⟩
  intro i a ha
  have hto := touched_one r i els.length 0 0 (by simp) hr (Nat.zero_le _)
  rw [← List.range_eq_range', Nat.zero_add] at hto
  rw [k7 i a ha, hto, Nat.testBit_two_pow]
  by_cases c1 : i < r
  · rw [if_pos (by simp; omega), if_neg (by simp; omega), if_pos c1]
  · rw [if_neg c1]
    by_cases c2 : i = r
    · rw [if_pos (by simp; omega), if_pos (by simp; omega), if_pos c2]
    · rw [if_neg (by simp; omega), if_neg c2]

theorem monte_ok (ps : List Part) (setup : List Change) (hS : Setup w.word (NameOk numeric) ps setup) : ∀ (draws : List Sets) (now : List Part),
    (∀ L ∈ draws, ∀ d ∈ L, Sweepable w.word d.1 d.2.1 d.2.2 (setup.foldl changed ps)) →
    ∃ steps, monteCarlo (setup.map Change.op) draws = steps.map Step.act ∧ Program w.word (NameOk numeric) ⟨ps, now⟩ steps ∧ runs steps = draws.length ∧
      ∀ (k : Nat) (L : Sets), draws[k]? = some L → ∃ before later, steps = before ++ .run :: later ∧ runs before = k ∧
        (before.foldl after ⟨ps, now⟩).now = setAll (setup.foldl changed ps) L := by
  intro draws
  induction draws with
  | nil => intro now _; exact ⟨[], rfl, trivial, rfl, by simp⟩
  | cons L draws ih =>
    intro now hd
    obtain ⟨steps, g1, g2, g3, g4⟩ := ih (setAll (setup.foldl changed ps) L) (fun L' h' => hd L' (List.mem_cons_of_mem _ h'))
    have hfold : (Step.reset :: (setup.map Step.change ++ L.map stepOf)).foldl after ⟨ps, now⟩ = ⟨ps, setAll (setup.foldl changed ps) L⟩ := by
      rw [List.foldl_cons, List.foldl_append]
      show (L.map stepOf).foldl after ((setup.map Step.change).foldl after ⟨ps, ps⟩) = _
      rw [after_setup setup _ hS.2, after_sets]
    have hruns : runs (Step.reset :: (setup.map Step.change ++ L.map stepOf)) = 0 := by
      rw [runs_cons, runs_append, runs_setup, runs_sets]; rfl
    refine ⟨Step.reset :: (setup.map Step.change ++ L.map stepOf) ++ .run :: steps, ?_, ?_, ?_, ?_⟩
    · show drawn _ L ++ monteCarlo _ draws = _
      rw [g1, drawn]
      simp only [List.map_append, List.map_cons, List.cons_append, acts_setup, acts_sets, List.append_assoc, List.nil_append]
      rfl
    · refine program_append w _ _ _ _ ⟨trivial, program_append w _ _ _ _ (program_setup w _ setup _ hS.1 hS.2) ?_⟩ ?_
      · rw [show after ⟨ps, now⟩ Step.reset = ⟨ps, ps⟩ from rfl, after_setup setup _ hS.2]
        exact program_sets w _ L _ (hd L List.mem_cons_self)
      · rw [hfold]; exact ⟨trivial, g2⟩
    · rw [runs_append, hruns, runs_cons, g3, List.length_cons]; show 0 + (1 + _) = _; omega
    · intro k L' hk
      cases k with
      | zero =>
        simp only [List.getElem?_cons_zero, Option.some.injEq] at hk
        subst hk
        exact ⟨_, steps, rfl, hruns, by rw [hfold]⟩
      | succ k =>
        rw [List.getElem?_cons_succ] at hk
        obtain ⟨before, later, j1, j2, j3⟩ := g4 k L' hk
        refine ⟨Step.reset :: (setup.map Step.change ++ L.map stepOf) ++ .run :: before, later, by rw [j1]; simp, ?_, ?_⟩
        · rw [runs_append, hruns, runs_cons, j2]; show 0 + (1 + k) = _; omega
        · rw [List.foldl_append, hfold]; exact j3

include he hl ht in
/-- C110: the netlist files of a Monte-Carlo analysis. `draws` says what is set in each run. The file of run k says the values drawn in run k, and for everything else the netlist with the recorded
instructions: nothing of the runs before is left. -/
theorem C110_monte_carlo (ps : List Part) (hok : ∀ p ∈ ps, p.Ok w.word (NameOk numeric)) (runno : Nat) (setup : List Change) (hS : Setup w.word (NameOk numeric) ps setup)
    (draws : List Sets) (hd : ∀ L ∈ draws, ∀ d ∈ L, Sweepable w.word d.1 d.2.1 d.2.2 (setup.foldl changed ps)) :
    ∃ st s, openText w numeric shown (fileText ps e) = some st ∧
      acts w numeric shown included circuit ⟨st, fileText ps e, runno, []⟩ (monteCarlo (setup.map Change.op) draws) = some s ∧ s.folder.length = draws.length ∧
      ∀ (k : Nat) (L : Sets), draws[k]? = some L → ∃ t st' ps', content s.folder (Model.Runner.runFileName circuit (runno + k + 1)) = some t ∧ openText w numeric shown t = some st' ∧ t = fileText ps' e ∧
        Grown (setup.foldl changed ps) ps' ∧ ps'.filterMap directive = (setup.foldl changed ps).filterMap directive ∧
        (∀ d ∈ L, (∀ d' ∈ L, SameKind d'.1 d.1 → upper d'.2.1 = upper d.2.1 → d'.2.2 = d.2.2) → asked d.1 d.2.1 st' = some d.2.2) ∧
        ∀ k' r, (∀ d ∈ L, SameKind d.1 k' → upper d.2.1 ≠ upper r) → asked k' r st' = given k' r (setup.foldl changed ps) := by
  obtain ⟨steps, g1, g2, g3, g4⟩ := monte_ok w numeric ps setup hS draws ps hd
  obtain ⟨st, s, h1, h2, h3, h4⟩ := C110_snapshot w numeric shown included circuit e he hl ht ps hok runno steps g2
  rw [← g1] at h2
  refine ⟨st, s, h1, h2, by rw [h3, g3], ?_⟩
  intro k L hk
  have hS' := hd L (List.mem_of_getElem? hk)
  obtain ⟨before, later, j1, j2, j3⟩ := g4 k L hk
  obtain ⟨t, st', ps', k1, k2, k3, k4, k5⟩ := h4 before later j1
  rw [j2] at k1
  rw [j3] at k4 k5
  refine ⟨t, st', ps', k1, k2, k3, grown_of_same _ _ k4 _ (grown_all _ L _ (Props.SweepFiles.grown_refl _)), (Props.Session.dirs_same _ _ k4).trans (dirs_sets L _), ?_, ?_⟩
  · intro d hdm hsame
    rw [k5]
    exact given_all w d.1 d.2.1 d.2.2 L _ hS' ⟨d, hdm, Iff.rfl, rfl⟩ hsame
  · intro k' r ho
    rw [k5]
    exact given_other w k' r L _ hS' ho

/-! ### Examples -/

include he hl ht in
/-- Limit of C110: when the parameter under analysis is named `run`, the run number is written over it: in the worst-case file of run `r` the parameter is the run number, whatever the values `on` and `off`. -/
theorem C110_run_name_witness (ps : List Part) (hok : ∀ p ∈ ps, p.Ok w.word (NameOk numeric)) (runno : Nat) (on off : Str) (text : Int → Str)
    (h1 : ParamSet runName on) (h0 : ParamSet runName off) (hx : ∀ r, ParamSet runName (text r)) :
    ∃ as st s, worstCase [⟨.param, runName, on, off⟩] text [] = some as ∧ openText w numeric shown (fileText ps e) = some st ∧
      acts w numeric shown included circuit ⟨st, fileText ps e, runno, []⟩ as = some s ∧ s.folder.length = 3 ∧
      ∀ r < 2, ∃ t st', content s.folder (Model.Runner.runFileName circuit (runno + r + 2)) = some t ∧ openText w numeric shown t = some st' ∧ getParameter runName st' = some (text r) := by
  obtain ⟨st, s, a1, a2, a3, a4⟩ := C110_snapshot w numeric shown included circuit e he hl ht ps hok runno
    [.reset, .change (.edit (.param runName (text (-1)))), .change (.instruct meas), .run,
      .change (.edit (.param runName off)), .change (.edit (.param runName (text 0))), .run,
      .change (.edit (.param runName on)), .change (.edit (.param runName (text 1))), .run]
    ⟨trivial, hx _, meas_directive, trivial, h0, hx _, trivial, h1, hx _, trivial, trivial⟩
  refine ⟨_, st, s, ?_, a1, a2, a3, ?_⟩
  · have hr : List.range (2 ^ 1) = [0, 1] := rfl
    have f0 : flips [⟨.param, runName, on, off⟩] 0 1 = some [.op (.edit (.param runName off))] := rfl
    have f1 : flips [⟨.param, runName, on, off⟩] 1 1 = some [.op (.edit (.param runName on))] := rfl
    simp only [worstCase, List.length_cons, List.length_nil, Nat.zero_add, hr, passes]
    rfl
  have key : ∀ (v : Str) (n : Nets), ParamSet runName v → given .param runName (after n (.change (.edit (.param runName v)))).now = some v :=
    fun v n h => ((given_edit w .param .param runName runName v n.now h).1 Iff.rfl).trans (if_pos rfl)
  have last : ∀ (B : List Step) (v : Str), ParamSet runName v →
      given .param runName ((B ++ [Step.change (.edit (.param runName v))]).foldl after ⟨ps, ps⟩).now = some v := by
    intro B v h
    rw [List.foldl_append]
    exact key v _ h
  intro r hr
  match r, hr with
  | 0, _ =>
    obtain ⟨t, st', ps', k1, k2, _, _, k5⟩ := a4 ([.reset, .change (.edit (.param runName (text (-1)))), .change (.instruct meas), .run,
      .change (.edit (.param runName off))] ++ [.change (.edit (.param runName (text 0)))]) _ rfl
    rw [show runno + runs _ + 1 = runno + 0 + 2 from rfl] at k1
    exact ⟨t, st', k1, k2, (k5 .param runName).trans (last _ _ (hx 0))⟩
  | 1, _ =>
    obtain ⟨t, st', ps', k1, k2, _, _, k5⟩ := a4 ([.reset, .change (.edit (.param runName (text (-1)))), .change (.instruct meas), .run,
      .change (.edit (.param runName off)), .change (.edit (.param runName (text 0))), .run,
      .change (.edit (.param runName on))] ++ [.change (.edit (.param runName (text 1)))]) _ rfl
    rw [show runno + runs _ + 1 = runno + 1 + 2 from rfl] at k1
    exact ⟨t, st', k1, k2, (k5 .param runName).trans (last _ _ (hx 1))⟩

open Props.CompLine (ascii digits str)
open Props.EditSave (exParts exParts_ok)
open Props.Session (exEnd)

/-- R1 and the parameter X at two corners each. -/
def exElems : List Elem := [⟨.component, "r1".toList, "4.5k".toList, "4.9k".toList⟩, ⟨.param, "X".toList, "1".toList, "{3*pi}".toList⟩]

/-- The text of a small number. -/
def exText (r : Int) : Str := if r = -1 then "-1".toList else if r = 0 then "0".toList else if r = 1 then "1".toList else if r = 2 then "2".toList else "3".toList

/-- The recorded instructions: another analysis, and a value of R1. -/
def exSetup : List Change := [.instruct ".ac dec 10 1 1k".toList, .edit (.set "R1".toList "10k".toList)]

theorem exSetup_ok : Setup ascii.word (NameOk digits) exParts exSetup := by
  refine ⟨⟨?_, ⟨by decide +kernel, .inl ⟨by decide +kernel, ⟨.plain _ (by decide) (by decide +kernel), by unfold Quiet; decide +kernel, by decide +kernel⟩⟩⟩, trivial⟩, ?_⟩
  · exact Props.Session.ex_directive _ (by decide +kernel) (by decide +kernel) (by decide +kernel) ".ac dec 10 1 1k".toList (by decide +kernel) (by decide +kernel) (by decide +kernel) (by decide +kernel) (by decide +kernel) (by decide +kernel)
  · intro c hc o ho
    simp only [exSetup, List.mem_cons, List.not_mem_nil, or_false] at hc
    rcases hc with rfl | rfl
    · simp at ho
    · injection ho with ho; subst ho; simp

theorem ex_run (v : Str) (hv : v ≠ []) (h : ∀ c ∈ v, Spec.ParamLine.NumChar c) (hq : Spec.LogicalLine.nest v = some Spec.LogicalLine.outside ∧ ';' ∉ v) (hb : ∀ c ∈ v, c ≠ '\n' ∧ c ≠ '\r')
    (p : Str) (d : Char) (hn : Spec.ParamLine.Name p) (h1 : p.head? = some d) (h2 : ¬ Spec.ParamLine.NumChar d) : ParamSet p v := by
  refine ⟨hn, ?_, ⟨.inr (.inr ⟨v, [], by simp, hv, h, by simp⟩), hq, hb⟩⟩
  rintro ⟨c, h3, h4⟩
  rw [h1] at h3
  injection h3 with h3
  subst h3
  exact h2 h4

theorem exText_ok (r : Int) : ParamSet runName (exText r) := by
  have hn : Spec.ParamLine.Name runName := ⟨by decide, by unfold Spec.ParamLine.NameChar; decide⟩
  have hr : ¬ Spec.ParamLine.NumChar 'r' := by unfold Spec.ParamLine.NumChar; decide
  unfold exText
  split_ifs <;> exact ex_run _ (by decide) (by unfold Spec.ParamLine.NumChar; decide) (by decide) (by decide) _ 'r' hn (by decide) hr

theorem exElems_ok : Elements ascii.word exElems (Spec.RunSnap.nominal exText exParts exSetup) := by
  have settable : ∀ v : Str, Settable ascii.word "r1".toList v exParts → Settable ascii.word "r1".toList v (Spec.RunSnap.nominal exText exParts exSetup) := by
    intro v hv
    have h1 : Spec.RunSnap.nominal exText exParts exSetup = addDirective (asLine meas) (setParamOf runName (exText (-1)) (setFirst "R1".toList "10k".toList (addDirective ".ac dec 10 1 1k\n".toList exParts))) := rfl
    have hd : ∀ (d : Str) (r v : Str) (ps : List Part), (analysis d && ps.any isAnalysis) = false → Settable ascii.word r v ps → Settable ascii.word r v (addDirective d ps) := by
      intro d r v ps hd h
      have ins : ∀ (a b : List Part), Settable ascii.word r v (a ++ b) → Settable ascii.word r v (a ++ .block (.line d) :: b) := by
        intro a
        induction a with
        | nil => intro b h; exact h
        | cons q a ih =>
          intro b h
          cases q with
          | comp l sh => exact h.imp id (fun h => ⟨h.1, ih b h.2⟩)
          | short l k => exact ⟨h.1, ih b h.2⟩
          | params l => exact ih b h
          | block b' => exact ih b h
      unfold addDirective
      rw [hd]
      simp only [Bool.false_eq_true, if_false]
      unfold putDirective
      split
      · exact h
      · exact ins _ _ (by rw [List.take_append_drop]; exact h)
    have hac : addDirective ".ac dec 10 1 1k\n".toList exParts = exParts.set 4 (.block (.line ".ac dec 10 1 1k\n".toList)) := by
      unfold addDirective
      rw [if_pos (by decide +kernel)]
      congr 1
    rw [h1]
    refine hd _ _ _ _ ?_ (Props.EditSave.settable_param _ _ _ _ _ _ (Props.EditSave.settable_set _ _ _ _ _ _ ?_))
    · have : analysis (asLine meas) = false := by decide +kernel
      rw [this]; rfl
    · rw [hac]; exact hv
  refine ⟨?_, ?_, ?_, ?_⟩
  · intro i j a b ha hb sk _
    match i, j with
    | 0, 0 => rfl
    | 1, 1 => rfl
    | 0, 1 =>
      simp only [exElems, List.getElem?_cons_zero, List.getElem?_cons_succ, Option.some.injEq] at ha hb
      subst ha; subst hb
      simp [SameKind] at sk
    | 1, 0 =>
      simp only [exElems, List.getElem?_cons_zero, List.getElem?_cons_succ, Option.some.injEq] at ha hb
      subst ha; subst hb
      simp [SameKind] at sk
    | i + 2, _ => simp [exElems] at ha
    | _, j + 2 => simp [exElems] at hb
  · intro a ha _
    simp only [exElems, List.mem_cons, List.not_mem_nil, or_false] at ha
    rcases ha with rfl | rfl <;> decide +kernel
  · intro a ha
    simp only [exElems, List.mem_cons, List.not_mem_nil, or_false] at ha
    rcases ha with rfl | rfl
    · exact settable _ ⟨by decide +kernel, .inl ⟨by decide +kernel, ⟨.plain _ (by decide) (by decide +kernel), by unfold Quiet; decide +kernel, by decide +kernel⟩⟩⟩
    · exact ex_run _ (by decide) (by unfold Spec.ParamLine.NumChar; decide) (by decide) (by decide) _ 'X' ⟨by decide, by unfold Spec.ParamLine.NameChar; decide⟩ (by decide) (by unfold Spec.ParamLine.NumChar; decide)
  · intro a ha
    simp only [exElems, List.mem_cons, List.not_mem_nil, or_false] at ha
    rcases ha with rfl | rfl
    · exact settable _ ⟨by decide +kernel, .inl ⟨by decide +kernel, ⟨.plain _ (by decide) (by decide +kernel), by unfold Quiet; decide +kernel, by decide +kernel⟩⟩⟩
    · have nn : ¬ Spec.ParamLine.NumberLike "X".toList := by
        rintro ⟨c, h3, h4⟩
        have h5 : c = 'X' := by simpa using h3.symm
        subst h5
        exact absurd h4 (by unfold Spec.ParamLine.NumChar; decide)
      exact (⟨⟨by decide, by unfold Spec.ParamLine.NameChar; decide⟩, nn, ⟨.inl ⟨"3*pi".toList, by decide, by decide⟩, by unfold Quiet; decide, by decide⟩⟩ : ParamSet "X".toList "{3*pi}".toList)

/-- Five files; that of corner 2 (the third corner, run number 4 + 4) has R1 at its `off` value and X at its `on` value. -/
example : ∃ as st s, worstCase exElems exText (exSetup.map Change.op) = some as ∧ openText ascii digits str (fileText exParts ".end\n".toList) = some st ∧
    acts ascii digits str (fun _ => none) "demo.net".toList ⟨st, fileText exParts ".end\n".toList, 4, []⟩ as = some s ∧ s.folder.length = 5 ∧
    (∃ t st', content s.folder "demo_5.net".toList = some t ∧ openText ascii digits str t = some st' ∧ getValue "R1".toList st' = some "10k".toList ∧ getParameter "run".toList st' = some "-1".toList) ∧
    ∃ t st', content s.folder "demo_8.net".toList = some t ∧ openText ascii digits str t = some st' ∧ getValue "r1".toList st' = some "4.9k".toList ∧ getParameter "X".toList st' = some "1".toList ∧
      getParameter "run".toList st' = some "2".toList ∧ getValue "E1".toList st' = some "value={2*V(a, b)}".toList := by
  obtain ⟨as, st, s, h1, h2, h3, h4, ⟨t, st', _, k1, k2, _, _, k3, k4⟩, h6⟩ := C110_worst_case ascii digits str (fun _ => none) "demo.net".toList ".end\n".toList exEnd.1 exEnd.2.1 exEnd.2.2
    exParts exParts_ok 4 exElems exText exSetup exSetup_ok exElems_ok (fun r _ _ => exText_ok r)
  obtain ⟨t2, st2, _, j1, j2, _, _, _, j3, j4, j5⟩ := h6 2 (by decide)
  refine ⟨as, st, s, h1, h2, h3, h4, ⟨t, st', k1, k2, ?_, k3⟩, t2, st2, j1, j2, j4 0 _ rfl, j4 1 _ rfl, j3, ?_⟩
  · refine (k4 .component "R1".toList (by simp)).trans ?_
    decide +kernel
  · refine (j5 .component "E1".toList ⟨?_, by simp⟩).trans ?_
    · intro a ha _
      simp only [exElems, List.mem_cons, List.not_mem_nil, or_false] at ha
      rcases ha with rfl | rfl <;> decide +kernel
    · decide +kernel

example : ∃ as, quickSens exElems exText (exSetup.map Change.op) = some as := by
  obtain ⟨as, _, _, h, _⟩ := C110_sensitivity ascii digits str (fun _ => none) "demo.net".toList ".end\n".toList exEnd.1 exEnd.2.1 exEnd.2.2
    exParts exParts_ok 4 exElems exText exSetup exSetup_ok exElems_ok (fun r _ _ => exText_ok r)
  exact ⟨as, h⟩

/-- Two Monte-Carlo runs: the second file has the recorded value of R1 again. -/
example : ∃ st s, openText ascii digits str (fileText exParts ".end\n".toList) = some st ∧
    acts ascii digits str (fun _ => none) "demo.net".toList ⟨st, fileText exParts ".end\n".toList, 0, []⟩
      (monteCarlo (exSetup.map Change.op) [[(.component, "r1".toList, "4.9k".toList)], [(.param, "X".toList, "1".toList)]]) = some s ∧
    (∃ t st', content s.folder "demo_1.net".toList = some t ∧ openText ascii digits str t = some st' ∧ getValue "r1".toList st' = some "4.9k".toList ∧ getParameter "X".toList st' = some "2".toList) ∧
    ∃ t st', content s.folder "demo_2.net".toList = some t ∧ openText ascii digits str t = some st' ∧ getValue "r1".toList st' = some "10k".toList ∧ getParameter "X".toList st' = some "1".toList := by
  obtain ⟨st, s, h1, h2, _, h4⟩ := C110_monte_carlo ascii digits str (fun _ => none) "demo.net".toList ".end\n".toList exEnd.1 exEnd.2.1 exEnd.2.2 exParts exParts_ok 0 exSetup exSetup_ok
    [[(.component, "r1".toList, "4.9k".toList)], [(.param, "X".toList, "1".toList)]] (by
      intro L hL d hd
      simp only [List.mem_cons, List.not_mem_nil, or_false] at hL
      rcases hL with rfl | rfl <;> rw [List.mem_singleton.1 hd]
      · have hac : exSetup.foldl changed exParts = setFirst "R1".toList "10k".toList (exParts.set 4 (.block (.line ".ac dec 10 1 1k\n".toList))) := by
          show setFirst _ _ (addDirective ".ac dec 10 1 1k\n".toList exParts) = _
          congr 1
        show Settable ascii.word "r1".toList "4.9k".toList _
        rw [hac]
        refine Props.EditSave.settable_set _ _ _ _ _ _ ?_
        exact ⟨by decide +kernel, .inl ⟨by decide +kernel, ⟨.plain _ (by decide) (by decide +kernel), by unfold Quiet; decide +kernel, by decide +kernel⟩⟩⟩
      · exact ex_run _ (by decide) (by unfold Spec.ParamLine.NumChar; decide) (by decide) (by decide) _ 'X' ⟨by decide, by unfold Spec.ParamLine.NameChar; decide⟩ (by decide) (by unfold Spec.ParamLine.NumChar; decide))
  obtain ⟨t, st', _, k1, k2, _, _, _, k3, k4⟩ := h4 0 _ rfl
  obtain ⟨t2, st2, _, j1, j2, _, _, _, j3, j4⟩ := h4 1 _ rfl
  refine ⟨st, s, h1, h2, ⟨t, st', k1, k2, ?_, ?_⟩, t2, st2, j1, j2, ?_, ?_⟩
  · have := k3 _ List.mem_cons_self (by intro d hd _ _; rw [List.mem_singleton.1 hd])
    exact this
  · refine (k4 .param "X".toList ?_).trans ?_
    · intro d hd sk
      rw [List.mem_singleton.1 hd] at sk
      simp [SameKind] at sk
    · decide +kernel
  · refine (j4 .component "r1".toList ?_).trans ?_
    · intro d hd sk
      rw [List.mem_singleton.1 hd] at sk
      simp [SameKind] at sk
    · decide +kernel
  · exact j3 _ List.mem_cons_self (by intro d hd _ _; rw [List.mem_singleton.1 hd])

end Props.RunSnap
