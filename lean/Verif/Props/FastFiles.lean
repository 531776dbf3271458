import Verif.Spec.FastFiles
import Verif.Props.RunSnap
import Verif.Props.FastWorst

/-! C111: the fast worst-case analysis, on the netlist. -/

namespace Props.FastFiles
open Model.RunSnap Model.EditSave Spec.EditSave Spec.Session Spec.SweepFiles
open Spec.RunSnap (Step Nets after Program Setup)
open Model.FastFiles Spec.FastFiles
open Model.FastWorst (Level level conf toggle settings cumulative Result)
open Model.CompLine (WordClass)
open Model.Params (PV)
open Model.PyStr (upper)
open Model.Stepper (What)
open Spec.NetBlocks
open Props.Params (NameOk)
open Props.EditSave (Rel)
open Props.SweepFiles (opOf given_edit sweepable_edited)
open Props.RunSnap (Inv act_inv)

abbrev Str := List Char
abbrev Elem := Model.FastFiles.Elem

variable (w : WordClass) (numeric : Str → Bool) (shown : PV → Str) (included : Str → Option Str) (circuit : Str) (meas : Str → ℚ)
variable (e : Str) (he : kindOf e = some .closing) (hl : OneLine e) (ht : Spec.NetSave.Tidy e)

/-- The netlist `now` is the netlist `N` with the elements at the levels of `c`. -/
structure At (els : List Elem) (N : List Part) (c : List Level) (now : List Part) : Prop where
  size : c.length = els.length
  elems : ∀ (i : Nat) (a : Elem) (l : Level), els[i]? = some a → c[i]? = some l → given a.kind a.name now = valueAt a l (given a.kind a.name N)
  others : ∀ k r, Spec.FastFiles.Other els k r → given k r now = given k r N
  grown : Grown N now
  dirs : now.filterMap directive = N.filterMap directive
  max : ∀ a ∈ els, Sweepable w.word a.kind a.name a.max now
  min : ∀ a ∈ els, Sweepable w.word a.kind a.name a.min now

/-- Every file written says a configuration. -/
def Told (els : List Elem) (N : List Part) (s : St) : Prop := ∀ p ∈ s.folder, ∃ c : List Level, c.length = els.length ∧ Says w numeric shown e els N c p.2

/-- The state of the program: the editor has such a netlist, and a reset goes back to `ps`. -/
def Good (ps : List Part) (els : List Elem) (N : List Part) (c : List Level) (s : St) : Prop := ∃ now, Inv w numeric e ⟨ps, now⟩ s ∧ At w els N c now ∧ Told w numeric shown e els N s

theorem at_start (els : List Elem) (N : List Part) (hE : Spec.FastFiles.Elements w.word els N) : At w els N (List.replicate els.length .nom) N := by
  refine ⟨by simp, ?_, fun _ _ _ => rfl, Props.SweepFiles.grown_refl _, rfl, hE.max, hE.min⟩
  intro i a l ha hl
  rw [List.getElem?_replicate] at hl
  split at hl
  · injection hl with hl; subst hl; rfl
  · simp at hl

theorem at_set {els : List Elem} {N : List Part} (hE : Spec.FastFiles.Elements w.word els N) {c : List Level} {now : List Part} (h : At w els N c now) (i : Nat) (a : Elem) (ha : els[i]? = some a) (b : Bool) :
    At w els N (c.set i (level b)) (edited now (opOf a.kind a.name (if b then a.max else a.min))) ∧ Sweepable w.word a.kind a.name (if b then a.max else a.min) now := by
  have hm : a ∈ els := List.mem_of_getElem? ha
  have hs : Sweepable w.word a.kind a.name (if b then a.max else a.min) now := by
    cases b with
    | true => exact h.max a hm
    | false => exact h.min a hm
  refine ⟨⟨by simpa using h.size, ?_, ?_, Props.SweepFiles.grown_edited _ _ _ h.grown, (Props.Session.dirs_edited now _).trans h.dirs, ?_, ?_⟩, hs⟩
  · intro j a' l' ha' hl'
    have hg := given_edit w a.kind a'.kind a.name a'.name _ now hs
    by_cases hij : i = j
    · subst hij
      rw [ha] at ha'; injection ha' with ha'; subst ha'
      rw [List.getElem?_set_self (by have := (List.getElem?_eq_some_iff.1 ha).1; rw [h.size]; exact this)] at hl'
      injection hl' with hl'; subst hl'
      rw [hg.1 Iff.rfl, if_pos rfl]
      cases b <;> rfl
    · rw [List.getElem?_set_ne hij] at hl'
      rw [← h.elems j a' l' ha' hl']
      by_cases sk : SameKind a.kind a'.kind
      · rw [hg.1 sk, if_neg]
        intro hu
        exact hij (hE.distinct i j a a' ha ha' sk hu)
      · exact hg.2 sk
  · intro k r ho
    have hg := given_edit w a.kind k a.name r _ now hs
    rw [← h.others k r ho]
    by_cases sk : SameKind a.kind k
    · rw [hg.1 sk, if_neg (ho a hm sk)]
    · exact hg.2 sk
  · exact fun a' h' => sweepable_edited w _ _ _ _ now (h.max a' h')
  · exact fun a' h' => sweepable_edited w _ _ _ _ now (h.min a' h')

section
variable {ps : List Part} {els : List Elem} {N : List Part} (hE : Spec.FastFiles.Elements w.word els N)

include he hl ht hE in
theorem setTo_good {c : List Level} {s : St} (h : Good w numeric shown e ps els N c s) (i : Nat) (a : Elem) (ha : els[i]? = some a) (b : Bool) :
    ∃ s', setTo w numeric shown included circuit s a b = some s' ∧ Good w numeric shown e ps els N (c.set i (level b)) s' := by
  obtain ⟨now, h1, h2, h3⟩ := h
  obtain ⟨g1, g2⟩ := at_set w hE h2 i a ha b
  obtain ⟨s', a1, a2, a3⟩ := act_inv w numeric shown included circuit e he hl ht (.change (.edit (opOf a.kind a.name (if b then a.max else a.min)))) ⟨ps, now⟩ s h1 (by
    show Allowed _ _ _ _
    revert g2
    cases a.kind <;> exact id)
  have en := Props.RunSnap.after_set ⟨ps, now⟩ (a.kind, a.name, (if b then a.max else a.min))
  have hf : s'.folder = s.folder := by
    rcases a3 with ⟨_, _, r⟩ | ⟨r, _⟩
    · exact r
    · simp at r
  refine ⟨s', ?_, _, ?_, g1, by unfold Told; rw [hf]; exact h3⟩
  · rw [← a1]
    unfold setTo Step.act setOp opOf
    cases a.kind <;> rfl
  · unfold Props.RunSnap.stepOf at en
    rw [en] at a2
    exact a2

variable (f : List Level → ℚ) (hm : ∀ (c : List Level) (t : Str), c.length = els.length → Says w numeric shown e els N c t → meas t = f c)

include he hl ht hm in
theorem run_good {c : List Level} {s : St} (h : Good w numeric shown e ps els N c s) :
    ∃ s', runMeasure w numeric shown included circuit meas s = some (s', f c) ∧ Good w numeric shown e ps els N c s' := by
  obtain ⟨now, h1, h2, h3⟩ := h
  obtain ⟨s', a1, a2, a3⟩ := act_inv w numeric shown included circuit e he hl ht .run ⟨ps, now⟩ s h1 trivial
  rcases a3 with ⟨r0, _, _⟩ | ⟨_, _, ps', r2, r3, r4⟩
  · simp [Spec.RunSnap.runs] at r0
  · obtain ⟨els2, o1, o2⟩ := Props.EditSave.open_rel w numeric shown ps' r3 e he hl
    have hask : ∀ k r, asked k r (els2 ++ [.item (.prim e)]) = given k r now := by
      intro k r
      have g1 : getValue r (els2 ++ [.item (.prim e)]) = first r now := by
        rw [Props.EditSave.get_rel w numeric r _ rfl _ _ o2, Props.EditSave.first_same r _ _ r4]
      have g2 : getParameter r (els2 ++ [.item (.prim e)]) = paramOf r now := by
        rw [Props.EditSave.get_param_rel w numeric r e he _ _ o2, Props.EditSave.param_same r _ _ r4]
      cases k with
      | param => exact g2
      | component => exact g1
      | model => exact g1
    have hsays : Says w numeric shown e els N c (fileText ps' e) := by
      refine ⟨_, ps', o1, rfl, Props.RunSnap.grown_of_same _ _ r4 _ h2.grown, (Props.Session.dirs_same _ _ r4).trans h2.dirs, ?_, ?_⟩
      · intro i a l ha hl'
        rw [hask]; exact h2.elems i a l ha hl'
      · intro k r ho
        rw [hask]; exact h2.others k r ho
    refine ⟨s', ?_, now, a2, h2, ?_⟩
    · have a1' : act w numeric shown included circuit s .run = some s' := a1
      unfold runMeasure
      rw [a1', Option.bind_some, r2, List.getLast?_concat]
      show some (s', meas (fileText ps' e)) = _
      rw [hm c _ h2.size hsays]
    · intro p hp
      rw [r2, List.mem_append, List.mem_singleton] at hp
      rcases hp with hp | rfl
      · exact h3 p hp
      · exact ⟨c, h2.size, hsays⟩

include he hl ht hE in
theorem each_good : ∀ (l : List Elem) (bs : List Bool) (pre : List Elem) (P R : List Level) (s : St), els = pre ++ l → P.length = pre.length → R.length = l.length → bs.length = l.length →
    Good w numeric shown e ps els N (P ++ R) s → ∃ s', setEach w numeric shown included circuit l bs s = some s' ∧ Good w numeric shown e ps els N (P ++ bs.map level) s' := by
  intro l
  induction l with
  | nil =>
    intro bs pre P R s _ _ hR hb h
    have hb' := List.length_eq_zero_iff.1 hb
    have hR' := List.length_eq_zero_iff.1 hR
    subst hb'; subst hR'
    exact ⟨s, rfl, h⟩
  | cons a l ih =>
    intro bs pre P R s hels hP hR hb h
    cases bs with
    | nil => simp at hb
    | cons b bs =>
      cases R with
      | nil => simp at hR
      | cons x R =>
        obtain ⟨s1, a1, a2⟩ := setTo_good w numeric shown included circuit e he hl ht hE h pre.length a (by rw [hels]; simp) b
        have e1 : (P ++ x :: R).set pre.length (level b) = (P ++ [level b]) ++ R := by rw [← hP]; simp
        rw [e1] at a2
        obtain ⟨s', b1, b2⟩ := ih bs (pre ++ [a]) (P ++ [level b]) R s1 (by rw [hels]; simp) (by simp [hP]) (by simpa using hR) (by simpa using hb) a2
        refine ⟨s', ?_, by simpa using b2⟩
        simp only [setEach, a1, Option.bind_some]
        exact b1

include he hl ht hE in
theorem lower_good : ∀ (l : List Elem) (bs : List Bool) (pre : List Elem) (P : List Level) (s : St), els = pre ++ l → P.length = pre.length → bs.length = l.length →
    Good w numeric shown e ps els N (P ++ List.replicate l.length .max) s → ∃ s', lower w numeric shown included circuit l bs s = some s' ∧ Good w numeric shown e ps els N (P ++ bs.map level) s' := by
  intro l
  induction l with
  | nil =>
    intro bs pre P s _ _ hb h
    have hb' := List.length_eq_zero_iff.1 hb
    subst hb'
    exact ⟨s, rfl, h⟩
  | cons a l ih =>
    intro bs pre P s hels hP hb h
    cases bs with
    | nil => simp at hb
    | cons b bs =>
      rw [List.length_cons, List.replicate_succ] at h
      have hstep : ∃ s1, (if b then some s else setTo w numeric shown included circuit s a false) = some s1 ∧ Good w numeric shown e ps els N ((P ++ [level b]) ++ List.replicate l.length .max) s1 := by
        cases b with
        | true => exact ⟨s, rfl, by simpa [level] using h⟩
        | false =>
          obtain ⟨s1, a1, a2⟩ := setTo_good w numeric shown included circuit e he hl ht hE h pre.length a (by rw [hels]; simp) false
          refine ⟨s1, a1, ?_⟩
          have e1 : (P ++ Level.max :: List.replicate l.length .max).set pre.length (level false) = (P ++ [level false]) ++ List.replicate l.length .max := by rw [← hP]; simp
          rw [e1] at a2
          exact a2
      obtain ⟨s1, a1, a2⟩ := hstep
      obtain ⟨s', b1, b2⟩ := ih bs (pre ++ [a]) (P ++ [level b]) s1 (by rw [hels]; simp) (by simp [hP]) (by simpa using hb) a2
      refine ⟨s', ?_, by simpa using b2⟩
      simp only [lower, a1, Option.bind_some]
      exact b1

include he hl ht hE hm in
theorem cumulate_good : ∀ (l : List Elem) (pre : List Elem) (P : List Level) (s : St), els = pre ++ l → P.length = pre.length →
    Good w numeric shown e ps els N (P ++ List.replicate l.length .nom) s → ∃ s', cumulate w numeric shown included circuit meas l s =
      some (s', (List.range l.length).map (fun j => f (P ++ (List.replicate (j + 1) .max ++ List.replicate (l.length - (j + 1)) .nom)))) ∧
      Good w numeric shown e ps els N (P ++ List.replicate l.length .max) s' := by
  intro l
  induction l with
  | nil =>
    intro pre P s _ _ h
    exact ⟨s, rfl, h⟩
  | cons a l ih =>
    intro pre P s hels hP h
    rw [List.length_cons, List.replicate_succ] at h
    obtain ⟨s1, a1, a2⟩ := setTo_good w numeric shown included circuit e he hl ht hE h pre.length a (by rw [hels]; simp) true
    have e1 : (P ++ Level.nom :: List.replicate l.length .nom).set pre.length (level true) = (P ++ [.max]) ++ List.replicate l.length .nom := by rw [← hP]; simp [level]
    rw [e1] at a2
    obtain ⟨s2, b1, b2⟩ := run_good w numeric shown included circuit meas e he hl ht f hm a2
    obtain ⟨s', c1, c2⟩ := ih (pre ++ [a]) (P ++ [.max]) s2 (by rw [hels]; simp) (by simp [hP]) b2
    refine ⟨s', ?_, by simpa [List.replicate_succ] using c2⟩
    simp only [cumulate, a1, Option.bind_some, b1, c1, Option.map_some, List.length_cons, List.range_succ_eq_map, List.map_cons, List.map_map]
    congr 3
    · simp [List.replicate_succ]
    · apply List.map_congr_left
      intro j _
      simp [List.replicate_succ]

theorem conf_set (set : List Bool) (i : Nat) (b : Bool) (h : set[i]? = some b) : (conf set).set i (level (!b)) = conf (toggle set i) ∧ ((conf set).set i (level (!b))).set i (level b) = conf set := by
  unfold conf toggle
  obtain ⟨hi, hb⟩ := List.getElem?_eq_some_iff.1 h
  constructor
  · apply List.ext_getElem?
    intro j
    rw [List.getElem?_map, List.getElem?_modify]
    by_cases hij : i = j
    · subst hij
      rw [List.getElem?_set_self (by simpa using hi), h]; simp
    · rw [List.getElem?_set_ne hij, List.getElem?_map]; simp [hij]
  · rw [List.set_set]
    apply List.ext_getElem?
    intro j
    by_cases hij : i = j
    · subst hij
      rw [List.getElem?_set_self (by simpa using hi), List.getElem?_map, h]; rfl
    · rw [List.getElem?_set_ne hij]

include he hl ht hE hm in
theorem checkMax_good (set : List Bool) (hset : set.length = els.length) (v : ℚ) : ∀ (todo i : Nat) (s : St), i + todo = els.length → Good w numeric shown e ps els N (conf set) s →
    (Model.FastWorst.checkMax f set v todo i = none → Model.FastFiles.checkMax w numeric shown included circuit meas els set v todo i s = none) ∧
    (Model.FastWorst.checkMax f set v todo i = some () → ∃ s', Model.FastFiles.checkMax w numeric shown included circuit meas els set v todo i s = some s' ∧ Good w numeric shown e ps els N (conf set) s') := by
  intro todo
  induction todo with
  | zero => intro i s _ h; exact ⟨by simp [Model.FastWorst.checkMax], fun _ => ⟨s, rfl, h⟩⟩
  | succ todo ih =>
    intro i s hi h
    obtain ⟨a, ha⟩ : ∃ a, els[i]? = some a := ⟨_, List.getElem?_eq_getElem (by omega)⟩
    obtain ⟨b, hb⟩ : ∃ b, set[i]? = some b := ⟨_, List.getElem?_eq_getElem (by omega)⟩
    obtain ⟨k1, k2⟩ := conf_set set i b hb
    obtain ⟨s1, a1, a2⟩ := setTo_good w numeric shown included circuit e he hl ht hE h i a ha (!b)
    obtain ⟨s2, b1, b2⟩ := run_good w numeric shown included circuit meas e he hl ht f hm a2
    obtain ⟨s3, c1, c2⟩ := setTo_good w numeric shown included circuit e he hl ht hE b2 i a ha b
    rw [k2] at c2
    obtain ⟨d1, d2⟩ := ih (i + 1) s3 (by omega) c2
    rw [Model.FastFiles.checkMax, ha, hb]
    simp only [a1, b1, c1, Option.bind_some, k1]
    rw [Model.FastWorst.checkMax]
    split
    · exact ⟨fun _ => rfl, by simp⟩
    · exact ⟨d1, d2⟩

include he hl ht hE hm in
theorem checkMin_good : ∀ (fuel : Nat) (set : List Bool) (v : ℚ) (i : Nat) (s : St), set.length = els.length → Good w numeric shown e ps els N (conf set) s →
    (Model.FastWorst.checkMin f els.length fuel set v i = none → Model.FastFiles.checkMin w numeric shown included circuit meas els fuel set v i s = none) ∧
    ∀ set' v', Model.FastWorst.checkMin f els.length fuel set v i = some (set', v') →
      ∃ s', Model.FastFiles.checkMin w numeric shown included circuit meas els fuel set v i s = some (s', set', v') ∧ Good w numeric shown e ps els N (conf set') s' := by
  intro fuel
  induction fuel with
  | zero => intro set v i s _ _; exact ⟨fun _ => rfl, by simp [Model.FastWorst.checkMin]⟩
  | succ fuel ih =>
    intro set v i s hset h
    by_cases hi : i ≥ els.length
    · rw [Model.FastWorst.checkMin, if_pos hi, Model.FastFiles.checkMin, List.getElem?_eq_none hi]
      refine ⟨by simp, ?_⟩
      intro set' v' hs
      simp only [Option.some.injEq, Prod.mk.injEq] at hs
      obtain ⟨rfl, rfl⟩ := hs
      exact ⟨s, rfl, h⟩
    · obtain ⟨a, ha⟩ : ∃ a, els[i]? = some a := ⟨_, List.getElem?_eq_getElem (by omega)⟩
      obtain ⟨b, hb⟩ : ∃ b, set[i]? = some b := ⟨_, List.getElem?_eq_getElem (by omega)⟩
      obtain ⟨k1, k2⟩ := conf_set set i b hb
      obtain ⟨s1, a1, a2⟩ := setTo_good w numeric shown included circuit e he hl ht hE h i a ha (!b)
      obtain ⟨s2, b1, b2⟩ := run_good w numeric shown included circuit meas e he hl ht f hm a2
      rw [Model.FastWorst.checkMin, if_neg hi, Model.FastFiles.checkMin, ha, hb]
      simp only [a1, b1, Option.bind_some, k1]
      by_cases hlt : f (conf (toggle set i)) < v
      · obtain ⟨s3, c1, c2⟩ := setTo_good w numeric shown included circuit e he hl ht hE b2 i a ha (!b)
        rw [List.set_set, k1] at c2
        obtain ⟨d1, d2⟩ := ih (toggle set i) (f (conf (toggle set i))) 0 s3 (by rw [Props.FastWorst.toggle_length]; exact hset) c2
        rw [if_pos hlt, if_pos hlt, c1, Option.bind_some]
        exact ⟨d1, d2⟩
      · obtain ⟨s3, c1, c2⟩ := setTo_good w numeric shown included circuit e he hl ht hE b2 i a ha b
        rw [k2] at c2
        obtain ⟨d1, d2⟩ := ih set v (i + 1) s3 hset c2
        rw [if_neg hlt, if_neg hlt, c1, Option.bind_some]
        exact ⟨d1, d2⟩

end

include he hl ht in
theorem acts_inv : ∀ (ss : List Step) (n : Nets) (s : St), Inv w numeric e n s → Program w.word (NameOk numeric) n ss →
    ∃ s', acts w numeric shown included circuit s (ss.map Step.act) = some s' ∧ Inv w numeric e (ss.foldl after n) s' ∧ (.run ∉ ss → s'.folder = s.folder) := by
  intro ss
  induction ss with
  | nil => intro n s h _; exact ⟨s, rfl, h, fun _ => rfl⟩
  | cons st ss ih =>
    intro n s h hp
    obtain ⟨s1, a1, a2, a3⟩ := act_inv w numeric shown included circuit e he hl ht st n s h hp.1
    obtain ⟨s', b1, b2, b3⟩ := ih (after n st) s1 a2 hp.2
    refine ⟨s', ?_, b2, ?_⟩
    rotate_left
    · intro hn
      rw [b3 (fun hr => hn (List.mem_cons_of_mem _ hr))]
      rcases a3 with ⟨_, _, r⟩ | ⟨r, _⟩
      · exact r
      · exact absurd (by rw [r]; exact List.mem_cons_self) hn
    simp only [List.map_cons, acts, a1, Option.bind_some]
    exact b1

include he hl ht in
theorem begun_good (ps : List Part) (setup : List Change) (hS : Setup w.word (NameOk numeric) ps setup) (now : List Part) (s : St) (h : Inv w numeric e ⟨ps, now⟩ s) :
    ∃ s', begun w numeric shown included circuit (setup.map Change.op) s = some s' ∧ Inv w numeric e ⟨ps, setup.foldl changed ps⟩ s' ∧ s'.folder = s.folder := by
  obtain ⟨s', a1, a2, a3⟩ := acts_inv w numeric shown included circuit e he hl ht (.reset :: setup.map .change) ⟨ps, now⟩ s h
    ⟨trivial, Props.RunSnap.program_setup w _ setup ⟨ps, ps⟩ hS.1 hS.2⟩
  have e1 : (Step.reset :: setup.map Step.change).foldl after ⟨ps, now⟩ = ⟨ps, setup.foldl changed ps⟩ := Props.RunSnap.after_setup setup ⟨ps, ps⟩ hS.2
  rw [e1] at a2
  refine ⟨s', ?_, a2, a3 (by simp)⟩
  rw [← a1, List.map_cons, Props.RunSnap.acts_setup]
  rfl

include he hl in
/-- What the editor shows. -/
theorem shows (n : Nets) (s : St) (h : Inv w numeric e n s) (k : What) (r : Str) : asked k r s.els = given k r n.now := by
  obtain ⟨⟨els, p1, p2⟩, _⟩ := h
  have g1 : getValue r s.els = first r n.now := by
    rw [p1, Props.EditSave.get_rel w numeric r _ rfl _ _ p2]
  have g2 : getParameter r s.els = paramOf r n.now := by
    rw [p1, Props.EditSave.get_param_rel w numeric r e he _ _ p2]
  cases k with
  | param => exact g2
  | component => exact g1
  | model => exact g1

theorem cumulative_eq (f : List Level → ℚ) (n : Nat) :
    (cumulative n).map f = f (List.replicate n .nom) :: (List.range n).map (fun j => f (List.replicate (j + 1) .max ++ List.replicate (n - (j + 1)) .nom)) := by
  unfold cumulative
  rw [List.range_succ_eq_map]
  simp [List.map_map, Function.comp_def]

theorem last_measure (f : List Level → ℚ) (n : Nat) :
    (f (List.replicate n .nom) :: (List.range n).map (fun j => f (List.replicate (j + 1) .max ++ List.replicate (n - (j + 1)) .nom))).getLastD 0 = f (List.replicate n .max) := by
  cases n with
  | zero => rfl
  | succ n =>
    rw [List.range_succ, List.map_append, ← List.cons_append]
    simp
    rw [← List.cons_append, List.getLast?_concat]
    rfl

include he hl ht in
/-- C111: the fast worst-case analysis on a netlist. `f` is the measurement as a function of the configuration: every netlist file that says a configuration (and is otherwise the netlist with the recorded instructions
played) gives `f` of it. Then the analysis returns what the algorithm on `f` returns (of which C50 says what it is), it raises exactly when that does, and in the end the editor shows the netlist with
the recorded instructions. Every netlist that was simulated is a configuration. -/
theorem C111_fast_worst_case (ps : List Part) (hok : ∀ p ∈ ps, p.Ok w.word (NameOk numeric)) (runno : Nat) (els : List Elem) (setup : List Change) (hS : Setup w.word (NameOk numeric) ps setup)
    (hE : Spec.FastFiles.Elements w.word els (setup.foldl changed ps)) (f : List Level → ℚ)
    (hm : ∀ (c : List Level) (t : Str), c.length = els.length → Says w numeric shown e els (setup.foldl changed ps) c t → meas t = f c) (fuel : Nat) :
    ∃ st, openText w numeric shown (fileText ps e) = some st ∧
      (Model.FastWorst.run f els.length fuel = none → analyse w numeric shown included circuit meas els (setup.map Change.op) fuel ⟨st, fileText ps e, runno, []⟩ = none) ∧
      ∀ r, Model.FastWorst.run f els.length fuel = some r →
        ∃ s, analyse w numeric shown included circuit meas els (setup.map Change.op) fuel ⟨st, fileText ps e, runno, []⟩ = some (s, r) ∧ (∀ k x, asked k x s.els = given k x (setup.foldl changed ps)) ∧
          ∀ p ∈ s.folder, ∃ c : List Level, c.length = els.length ∧ Says w numeric shown e els (setup.foldl changed ps) c p.2 := by
  obtain ⟨st, h1, h2⟩ := Props.EditSave.open_rel w numeric shown ps hok e he hl
  have hself : List.Forall₂ Part.Same ps ps := by
    clear hok hS hE hm h1 h2
    induction ps with
    | nil => exact .nil
    | cons p ps ih =>
      refine .cons ?_ ih
      cases p with
      | comp l sh => exact ⟨⟨rfl, rfl, rfl, rfl, rfl, rfl, rfl⟩, rfl, rfl⟩
      | short l k => rfl
      | params l => exact ⟨rfl, rfl, rfl⟩
      | block b => rfl
  refine ⟨_, h1, ?_⟩
  have hi : Inv w numeric e ⟨ps, ps⟩ ⟨st ++ [.item (.prim e)], fileText ps e, runno, []⟩ := ⟨⟨st, rfl, h2⟩, ps, rfl, hok, hself⟩
  have hf0 : (⟨st ++ [.item (.prim e)], fileText ps e, runno, []⟩ : St).folder = [] := rfl
  generalize (⟨st ++ [.item (.prim e)], fileText ps e, runno, []⟩ : St) = s0 at hi hf0
  obtain ⟨s1, a1, a2, a3⟩ := begun_good w numeric shown included circuit e he hl ht ps setup hS ps s0 hi
  generalize hN : setup.foldl changed ps = N at *
  have g1 : Good w numeric shown e ps els N (List.replicate els.length .nom) s1 := ⟨N, a2, at_start w els N hE, by unfold Told; rw [a3, hf0]; simp⟩
  obtain ⟨s2, b1, b2⟩ := run_good w numeric shown included circuit meas e he hl ht f hm g1
  obtain ⟨s3, c1, c2⟩ := cumulate_good w numeric shown included circuit meas e he hl ht hE f hm els [] [] s2 rfl rfl b2
  simp only [List.nil_append] at c1 c2
  have hlast := last_measure f els.length
  have hcum := cumulative_eq f els.length
  rw [← hcum] at hlast
  have hlen : (settings ((cumulative els.length).map f)).length = els.length := by rw [Props.FastWorst.settings_length]; simp [cumulative]
  unfold analyse Model.FastWorst.run
  simp only [a1, b1, c1, Option.bind_some, Option.bind_eq_bind, ← hcum, hlast]
  generalize hms : settings ((cumulative els.length).map f) = ms at *
  obtain ⟨s4, d1, d2⟩ := lower_good w numeric shown included circuit e he hl ht hE els ms [] [] s3 rfl rfl hlen c2
  rw [List.nil_append] at d2
  simp only [d1, Option.bind_some]
  obtain ⟨s5, e1, e2⟩ : ∃ s5, expected w numeric shown included circuit meas ms (f (List.replicate els.length .max)) s4 =
      some (s5, if ms.any (! ·) then f (conf ms) else f (List.replicate els.length .max)) ∧ Good w numeric shown e ps els N (conf ms) s5 := by
    unfold expected
    by_cases hany : ms.any (! ·)
    · rw [if_pos hany, if_pos hany]
      exact run_good w numeric shown included circuit meas e he hl ht f hm d2
    · rw [if_neg hany, if_neg hany]
      exact ⟨s4, rfl, d2⟩
  simp only [e1, Option.bind_some]
  generalize (if ms.any (! ·) then f (conf ms) else f (List.replicate els.length .max)) = mv at *
  obtain ⟨x1, x2⟩ := checkMax_good w numeric shown included circuit meas e he hl ht hE f hm ms hlen mv els.length 0 s5 (by omega) e2
  cases hcm : Model.FastWorst.checkMax f ms mv els.length 0 with
  | none => rw [x1 hcm]; simp
  | some u =>
    obtain ⟨s6, y1, y2⟩ := x2 hcm
    obtain ⟨s7, z1, z2⟩ := each_good w numeric shown included circuit e he hl ht hE els (ms.map (! ·)) [] [] (conf ms) s6 rfl rfl (by unfold conf; simpa using hlen) (by simpa using hlen) y2
    rw [List.nil_append] at z2
    obtain ⟨s8, u1, u2⟩ := run_good w numeric shown included circuit meas e he hl ht f hm z2
    obtain ⟨v1, v2⟩ := checkMin_good w numeric shown included circuit meas e he hl ht hE f hm fuel (ms.map (! ·)) (f (conf (ms.map (! ·)))) 0 s8 (by simpa using hlen) u2
    have hu1 : runMeasure w numeric shown included circuit meas s7 = some (s8, f (conf (ms.map (! ·)))) := u1
    simp only [y1, z1, hu1, Option.bind_some]
    cases hmin : Model.FastWorst.checkMin f els.length fuel (ms.map (! ·)) (f (conf (ms.map (! ·)))) 0 with
    | none => rw [v1 hmin]; simp
    | some p =>
      obtain ⟨set', v'⟩ := p
      obtain ⟨s9, w1, now9, w2, w3, w4⟩ := v2 set' v' hmin
      obtain ⟨s10, k1, k2, k3⟩ := begun_good w numeric shown included circuit e he hl ht ps setup hS now9 s9 w2
      simp only [w1, k1, Option.bind_some, Option.map_some]
      refine ⟨by simp, ?_⟩
      intro r hr
      injection hr with hr
      subst hr
      refine ⟨s10, rfl, ?_, ?_⟩
      · intro k x
        rw [shows w numeric e he hl _ _ k2 k x, hN]
      · rw [k3]; exact w4

include he hl ht in
/-- C111: what the analysis returns, on the netlist: the nominal value is that of the netlist with the recorded instructions; the maximum and the minimum are the measurements of the configurations returned with them,
and no change of one element in those raises, or lowers, the measurement. -/
theorem C111_extremes (ps : List Part) (hok : ∀ p ∈ ps, p.Ok w.word (NameOk numeric)) (runno : Nat) (els : List Elem) (setup : List Change) (hS : Setup w.word (NameOk numeric) ps setup)
    (hE : Spec.FastFiles.Elements w.word els (setup.foldl changed ps)) (f : List Level → ℚ)
    (hm : ∀ (c : List Level) (t : Str), c.length = els.length → Says w numeric shown e els (setup.foldl changed ps) c t → meas t = f c) (fuel : Nat)
    (st : List El) (hst : openText w numeric shown (fileText ps e) = some st) (s : St) (r : Result)
    (h : analyse w numeric shown included circuit meas els (setup.map Change.op) fuel ⟨st, fileText ps e, runno, []⟩ = some (s, r)) :
    r.nominal = f (List.replicate els.length .nom) ∧
    (r.maxComp.length = els.length ∧ r.maxValue = f (conf r.maxComp) ∧ ∀ i < els.length, f (conf (toggle r.maxComp i)) ≤ r.maxValue) ∧
    (r.minComp.length = els.length ∧ r.minValue = f (conf r.minComp) ∧ ∀ i < els.length, r.minValue ≤ f (conf (toggle r.minComp i))) := by
  obtain ⟨st', h1, h2, h3⟩ := C111_fast_worst_case w numeric shown included circuit meas e he hl ht ps hok runno els setup hS hE f hm fuel
  rw [hst] at h1
  injection h1 with h1
  subst h1
  cases hr : Model.FastWorst.run f els.length fuel with
  | none => rw [h2 hr] at h; simp at h
  | some r' =>
    obtain ⟨s', k, _⟩ := h3 r' hr
    rw [k] at h
    injection h with h
    injection h with _ h
    subst h
    exact Props.FastWorst.C50_reported_extremes_are_local_optima f els.length fuel r' hr

open Props.CompLine (ascii digits str)
open Props.EditSave (exParts exParts_ok)
open Props.Session (exEnd)
open Props.RunSnap (exSetup exSetup_ok)

/-- R1 at two corners. -/
def exOne : List Elem := [⟨.component, "r1".toList, "4.9k".toList, "4.5k".toList⟩]

/-- A circuit whose measurement grows with R1: what is measured depends on what the netlist file says about R1. -/
def exMeas (t : Str) : ℚ :=
  match openText ascii digits str t with
  | none => 0
  | some st => if getValue "r1".toList st = some "4.9k".toList then 2 else if getValue "r1".toList st = some "4.5k".toList then 0 else 1

def exF (c : List Level) : ℚ := if c = [.max] then 2 else if c = [.min] then 0 else 1

theorem exOne_ok : Spec.FastFiles.Elements ascii.word exOne (exSetup.foldl changed exParts) := by
  have hac : exSetup.foldl changed exParts = setFirst "R1".toList "10k".toList (exParts.set 4 (.block (.line ".ac dec 10 1 1k\n".toList))) := by
    show setFirst _ _ (addDirective ".ac dec 10 1 1k\n".toList exParts) = _
    congr 1
  refine ⟨?_, ?_, ?_⟩
  · intro i j a b ha hb _ _
    have hi := (List.getElem?_eq_some_iff.1 ha).1
    have hj := (List.getElem?_eq_some_iff.1 hb).1
    simp only [exOne, List.length_singleton] at hi hj
    omega
  · intro a ha
    rw [List.mem_singleton.1 ha]
    show Settable ascii.word "r1".toList "4.9k".toList _
    rw [hac]
    exact Props.EditSave.settable_set _ _ _ _ _ _ ⟨by decide +kernel, .inl ⟨by decide +kernel, ⟨.plain _ (by decide) (by decide +kernel), by unfold Quiet; decide +kernel, by decide +kernel⟩⟩⟩
  · intro a ha
    rw [List.mem_singleton.1 ha]
    show Settable ascii.word "r1".toList "4.5k".toList _
    rw [hac]
    exact Props.EditSave.settable_set _ _ _ _ _ _ ⟨by decide +kernel, .inl ⟨by decide +kernel, ⟨.plain _ (by decide) (by decide +kernel), by unfold Quiet; decide +kernel, by decide +kernel⟩⟩⟩

theorem exMeas_ok (c : List Level) (t : Str) (hc : c.length = exOne.length) (h : Says ascii digits str ".end\n".toList exOne (exSetup.foldl changed exParts) c t) : exMeas t = exF c := by
  obtain ⟨st, ps', o1, _, _, _, h5, _⟩ := h
  obtain ⟨l, rfl⟩ : ∃ l, c = [l] := List.length_eq_one_iff.1 hc
  have hv : getValue "r1".toList st = valueAt ⟨.component, "r1".toList, "4.9k".toList, "4.5k".toList⟩ l (given .component "r1".toList (exSetup.foldl changed exParts)) := h5 0 _ l rfl rfl
  have hg : given .component "r1".toList (exSetup.foldl changed exParts) = some "10k".toList := by decide +kernel
  rw [hg] at hv
  unfold exMeas
  rw [o1]
  simp only [hv]
  cases l <;> rfl

/-- The measurement is 1 at first, 2 with R1 at its maximum and 0 at its minimum. -/
example : ∃ st s, openText ascii digits str (fileText exParts ".end\n".toList) = some st ∧
    analyse ascii digits str (fun _ => none) "demo.net".toList exMeas exOne (exSetup.map Change.op) 9 ⟨st, fileText exParts ".end\n".toList, 4, []⟩ = some (s, ⟨1, 0, [true], 2, [false]⟩) ∧
    getValue "R1".toList s.els = some "10k".toList := by
  obtain ⟨st, h1, _, h3⟩ := C111_fast_worst_case ascii digits str (fun _ => none) "demo.net".toList exMeas ".end\n".toList exEnd.1 exEnd.2.1 exEnd.2.2
    exParts exParts_ok 4 exOne exSetup exSetup_ok exOne_ok exF exMeas_ok 9
  have hr : Model.FastWorst.run exF exOne.length 9 = some ⟨1, 0, [true], 2, [false]⟩ := by decide +kernel
  obtain ⟨s, a, b, _⟩ := h3 _ hr
  refine ⟨st, s, h1, a, (b .component "R1".toList).trans ?_⟩
  decide +kernel

end Props.FastFiles
