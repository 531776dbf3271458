import Verif.Model.Stepper
import Verif.Spec.Product
/- Helper lemmas for SimStepper.run_all. -/
namespace Lemmas.Stepper
open Model.Stepper Spec

variable {V : Type}

inductive Steps (dims : List (Dim V)) (task : Nat → Option Nat) : St V → St V → Prop
  | refl (s) : Steps dims task s s
  | head {s s1 s2} : step dims task s = some s1 → Steps dims task s1 s2 → Steps dims task s s2

theorem Steps.trans {dims : List (Dim V)} {task} {a b c : St V} (h1 : Steps dims task a b)
    (h2 : Steps dims task b c) : Steps dims task a c := by
  induction h1 with
  | refl => exact h2
  | head h _ ih => exact Steps.head h (ih h2)

theorem Steps.runAll {dims : List (Dim V)} {task} {a b : St V} (h : Steps dims task a b)
    (hb : step dims task b = none) : ∃ N, ∀ n, N ≤ n → Model.Stepper.runAll dims task n a = some b := by
  induction h with
  | refl s =>
    refine ⟨1, fun n hn => ?_⟩
    obtain ⟨m, rfl⟩ : ∃ m, n = m + 1 := ⟨n - 1, by omega⟩
    simp [Model.Stepper.runAll, hb]
  | head h _ ih =>
    obtain ⟨N, hN⟩ := ih hb
    refine ⟨N + 1, fun n hn => ?_⟩
    obtain ⟨m, rfl⟩ : ∃ m, n = m + 1 := ⟨n - 1, by omega⟩
    simp [Model.Stepper.runAll, h, hN m (by omega)]

/-- Handle `h` belongs to one of the dimensions `suf` numbered from `i`. -/
def Used (i : Nat) (suf : List (Dim V)) (h : Handle) : Prop :=
  ∃ j d, suf[j]? = some d ∧ h = handle (i + j) d

def Rewound (i : Nat) (suf : List (Dim V)) (pos : Handle → Nat) : Prop :=
  ∀ h, Used i suf h → pos h = 0

/-- Handles pairwise distinct and no one-shot generator, numbering from `i`. -/
def Sep : Nat → List (Dim V) → Prop
  | _, [] => True
  | i, d :: ds => d.kind ≠ .oneShot ∧ ¬ Used (i + 1) ds (handle i d) ∧ Sep (i + 1) ds

theorem used_cons (i : Nat) (d : Dim V) (ds : List (Dim V)) (h : Handle) :
    Used i (d :: ds) h ↔ h = handle i d ∨ Used (i + 1) ds h := by
  constructor
  · rintro ⟨j, e, he, rfl⟩
    cases j with
    | zero => simp at he; subst he; left; rfl
    | succ j => right; exact ⟨j, e, by simpa using he, by rw [show i + (j+1) = i + 1 + j by omega]⟩
  · rintro (rfl | ⟨j, e, he, rfl⟩)
    · exact ⟨0, d, by simp, rfl⟩
    · exact ⟨j + 1, e, by simpa using he, by rw [show i + (j+1) = i + 1 + j by omega]⟩

theorem iterReset_eq (pos : Handle → Nat) (i : Nat) (d : Dim V) (h : d.kind ≠ .oneShot) :
    iterReset pos i d = upd pos (handle i d) 0 := by
  unfold iterReset handle
  cases hk : d.kind <;> simp_all

def keys (ds : List (Dim V)) : List (What × Nat) := ds.map fun d => (d.what, d.elem)
def elems (ds : List (Dim V)) : List Nat := ds.map fun d => d.elem

/-- Two maps agree outside the given keys. -/
def AgreeOff {K : Type} (ks : List K) (f g : K → Option V) : Prop := ∀ k, k ∉ ks → f k = g k

theorem applyCombo_agree {K : Type} [DecidableEq K] (ks : List K) (vs : List V) (f g : K → Option V)
    (hl : vs.length = ks.length) (h : AgreeOff ks f g) : applyCombo f ks vs = applyCombo g ks vs := by
  induction ks generalizing vs f g with
  | nil => cases vs with
    | nil => funext k; exact h k (by simp)
    | cons => simp at hl
  | cons k ks ih =>
    cases vs with
    | nil => simp at hl
    | cons v vs =>
      simp only [applyCombo]
      apply ih _ _ _ (by simpa using hl)
      intro x hx
      by_cases hxk : x = k
      · simp [hxk]
      · simp [hxk, h x (by simp [hxk, hx])]

theorem length_of_mem_product (ls : List (List V)) (c : List V) (h : c ∈ product ls) :
    c.length = ls.length := by
  rw [mem_product] at h; exact h.length_eq

/-- The snapshots logged for the combinations of the dimensions `suf`. -/
def snaps (suf : List (Dim V)) (s : St V) : List ((What × Nat → Option V) × (Nat → Option V)) :=
  (product (suf.map Dim.vals)).map fun c =>
    (applyCombo s.editor (keys suf) c, applyCombo s.cur (elems suf) c)

/-- Main odometer lemma. -/
theorem odometer (dims : List (Dim V)) (task : Nat → Option Nat) (suf : List (Dim V)) :
    ∀ (pre : List (Dim V)), dims = pre ++ suf → Sep pre.length suf →
    ∀ s : St V, s.iterNo = pre.length → Rewound pre.length suf s.pos →
    ∃ s', Steps dims task s s' ∧ s'.iterNo = (pre.length : Int) - 1 ∧
      Rewound pre.length suf s'.pos ∧ (∀ h, ¬ Used pre.length suf h → s'.pos h = s.pos h) ∧
      AgreeOff (keys suf) s'.editor s.editor ∧ AgreeOff (elems suf) s'.cur s.cur ∧
      s'.launches = s.launches ++ snaps suf s := by
  induction suf with
  | nil =>
    intro pre hd _ s hi hrew
    have hlen : dims.length = pre.length := by simp [hd]
    refine ⟨{ s with
        launches := s.launches ++ [(s.editor, s.cur)]
        simInfo := match task s.launches.length with
          | some r => upd s.simInfo r (some s.cur)
          | none => s.simInfo
        iterNo := (dims.length : Int) - 1 }, Steps.head ?_ (Steps.refl _), ?_, ?_, ?_, ?_, ?_, ?_⟩
    · unfold step
      rw [if_neg (by omega)]
      have : dims[s.iterNo.toNat]? = none := by
        rw [List.getElem?_eq_none_iff]; omega
      rw [this]
      congr 2
    · simp [hlen]
    · rintro h ⟨j, d, hj, _⟩; simp at hj
    · intro h _; rfl
    · intro k _; rfl
    · intro k _; rfl
    · simp [snaps, product, applyCombo, keys, elems]
  | cons d rest ih =>
    intro pre hd hsep s hi hrew
    obtain ⟨hk, hnu, hsep'⟩ := hsep
    -- inner loop over the remaining values of dimension d
    have inner : ∀ (m : Nat) (s : St V), s.iterNo = pre.length →
        m = d.vals.length - s.pos (handle pre.length d) →
        Rewound (pre.length + 1) rest s.pos →
        ∃ s', Steps dims task s s' ∧ s'.iterNo = (pre.length : Int) - 1 ∧
          Rewound pre.length (d :: rest) s'.pos ∧
          (∀ h, ¬ Used pre.length (d :: rest) h → s'.pos h = s.pos h) ∧
          AgreeOff (keys (d :: rest)) s'.editor s.editor ∧
          AgreeOff (elems (d :: rest)) s'.cur s.cur ∧
          s'.launches = s.launches ++
            ((d.vals.drop (s.pos (handle pre.length d))).flatMap fun v =>
              (product (rest.map Dim.vals)).map fun c =>
                (applyCombo s.editor (keys (d :: rest)) (v :: c),
                 applyCombo s.cur (elems (d :: rest)) (v :: c))) := by
      intro m
      induction m with
      | zero =>
        intro s hi hm hrew
        have hge : d.vals.length ≤ s.pos (handle pre.length d) := by omega
        have hv : d.vals[s.pos (handle pre.length d)]? = none := by
          rw [List.getElem?_eq_none_iff]; exact hge
        refine ⟨{ s with pos := iterReset s.pos pre.length d, iterNo := s.iterNo - 1 },
          Steps.head ?_ (Steps.refl _), ?_, ?_, ?_, ?_, ?_, ?_⟩
        · unfold step
          rw [if_neg (by omega)]
          have h1 : s.iterNo.toNat = pre.length := by omega
          have h2 : dims[pre.length]? = some d := by simp [hd]
          rw [h1, h2]; simp [hv]
        · simp [hi]
        · intro h hu
          rw [used_cons] at hu
          simp only [iterReset_eq _ _ _ hk, upd]
          split
          · rfl
          · rename_i hne
            exact hrew h (hu.resolve_left hne)
        · intro h hu
          rw [used_cons] at hu
          simp only [iterReset_eq _ _ _ hk, upd]
          rw [if_neg (fun he => hu (Or.inl he))]
        · intro k _; rfl
        · intro k _; rfl
        · simp [List.drop_eq_nil_of_le hge]
      | succ m ihm =>
        intro s hi hm hrew
        have hlt : s.pos (handle pre.length d) < d.vals.length := by omega
        obtain ⟨v, hv⟩ : ∃ v, d.vals[s.pos (handle pre.length d)]? = some v :=
          ⟨_, List.getElem?_eq_getElem hlt⟩
        let s1 : St V := { s with
          pos := upd s.pos (handle pre.length d) (s.pos (handle pre.length d) + 1)
          cur := upd s.cur d.elem (some v)
          editor := upd s.editor (d.what, d.elem) (some v)
          iterNo := s.iterNo + 1 }
        have hstep1 : step dims task s = some s1 := by
          unfold step
          rw [if_neg (by omega)]
          have h1 : s.iterNo.toNat = pre.length := by omega
          have h2 : dims[pre.length]? = some d := by simp [hd]
          rw [h1, h2]; simp [hv, s1]
        have hrew1 : Rewound (pre ++ [d]).length rest s1.pos := by
          intro h hu
          simp only [List.length_append, List.length_cons, List.length_nil, Nat.zero_add] at hu
          have hne : h ≠ handle pre.length d := by rintro rfl; exact hnu hu
          simp only [s1, upd, if_neg hne]
          exact hrew h hu
        obtain ⟨s2, st2, hi2, hr2, hf2, he2, hc2, hl2⟩ := ih (pre ++ [d]) (by simp [hd])
          (by simpa using hsep') s1 (by simp [s1, hi]) hrew1
        simp only [List.length_append, List.length_cons, List.length_nil, Nat.zero_add] at hi2 hr2 hf2
        have hp2 : s2.pos (handle pre.length d) = s.pos (handle pre.length d) + 1 := by
          rw [hf2 _ hnu]; simp [s1, upd]
        have hi2' : s2.iterNo = pre.length := by omega
        obtain ⟨s3, st3, hi3, hr3, hf3, he3, hc3, hl3⟩ := ihm s2 hi2' (by omega) hr2
        refine ⟨s3, Steps.head hstep1 (st2.trans st3), hi3, hr3, ?_, ?_, ?_, ?_⟩
        · intro h hu
          rw [hf3 h hu]
          rw [used_cons] at hu
          rw [hf2 h (fun hx => hu (Or.inr hx))]
          simp only [s1, upd]
          rw [if_neg (fun he => hu (Or.inl he))]
        · intro k hkk
          rw [he3 k hkk]
          simp only [keys, List.map_cons, List.mem_cons, not_or] at hkk
          rw [he2 k hkk.2]
          simp only [s1, upd, if_neg hkk.1]
        · intro k hkk
          rw [hc3 k hkk]
          simp only [elems, List.map_cons, List.mem_cons, not_or] at hkk
          rw [hc2 k hkk.2]
          simp only [s1, upd, if_neg hkk.1]
        · rw [hl3, hl2]
          have hdrop : d.vals.drop (s.pos (handle pre.length d)) =
              v :: d.vals.drop (s.pos (handle pre.length d) + 1) := by
            rw [List.drop_eq_getElem_cons hlt]
            rw [List.getElem?_eq_getElem hlt] at hv
            injection hv with hv; rw [hv]
          rw [hdrop, List.flatMap_cons, ← List.append_assoc, hp2]
          congr 1
          apply congrArg List.flatten
          apply List.map_congr_left
          intro w _
          apply List.map_congr_left
          intro c hc
          have hlen : c.length = rest.length := by
            have := length_of_mem_product _ _ hc; simpa using this
          congr 1
          · apply applyCombo_agree _ _ _ _ (by simp [keys, hlen])
            intro k hkk
            simp only [keys, List.map_cons, List.mem_cons, not_or] at hkk
            rw [he2 k hkk.2]
            simp only [s1, upd, if_neg hkk.1]
          · apply applyCombo_agree _ _ _ _ (by simp [elems, hlen])
            intro k hkk
            simp only [elems, List.map_cons, List.mem_cons, not_or] at hkk
            rw [hc2 k hkk.2]
            simp only [s1, upd, if_neg hkk.1]
    have h0 : s.pos (handle pre.length d) = 0 := hrew _ ((used_cons _ _ _ _).mpr (Or.inl rfl))
    obtain ⟨s', a, b, c, e, f, g, hl⟩ := inner _ s hi rfl
      (fun h hu => hrew h ((used_cons _ _ _ _).mpr (Or.inr hu)))
    refine ⟨s', a, b, c, e, f, g, ?_⟩
    rw [hl, h0]
    simp only [snaps, List.map_cons, product, List.drop_zero, List.map_flatMap, List.map_map,
      Function.comp_def]

/-- Rewinding everything at the start of `run_all`. -/
theorem resetAll_frame (ds : List (Dim V)) : ∀ (i : Nat) (pos : Handle → Nat),
    Sep i ds → ∀ h, ¬ Used i ds h → resetAll i ds pos h = pos h := by
  induction ds with
  | nil => intros; rfl
  | cons d ds ih =>
    intro i pos hs h hu
    rw [used_cons] at hu
    obtain ⟨hk, _, hs'⟩ := hs
    simp only [resetAll]
    rw [ih (i+1) _ hs' h (fun hx => hu (Or.inr hx)), iterReset_eq _ _ _ hk]
    simp only [upd]; rw [if_neg (fun he => hu (Or.inl he))]

theorem resetAll_rewound (ds : List (Dim V)) : ∀ (i : Nat) (pos : Handle → Nat),
    Sep i ds → Rewound i ds (resetAll i ds pos) := by
  induction ds with
  | nil => rintro i pos _ h ⟨j, d, hj, _⟩; simp at hj
  | cons d ds ih =>
    intro i pos hs h hu
    obtain ⟨hk, hn, hs'⟩ := hs
    rw [used_cons] at hu
    simp only [resetAll]
    by_cases hu2 : Used (i+1) ds h
    · exact ih (i+1) _ hs' h hu2
    · rw [resetAll_frame ds (i+1) _ hs' h hu2, iterReset_eq _ _ _ hk]
      simp [upd, hu.resolve_right hu2]

/-- No aliasing of swept objects implies separation of iterators. -/
theorem sep_of_noalias (ds : List (Dim V)) : ∀ i : Nat,
    (∀ d ∈ ds, d.kind ≠ .oneShot) →
    ds.Pairwise (fun a b => a.kind = .selfReset → b.kind = .selfReset → a.obj ≠ b.obj) → Sep i ds := by
  induction ds with
  | nil => intros; trivial
  | cons d ds ih =>
    intro i hk hp
    rw [List.pairwise_cons] at hp
    refine ⟨hk d (by simp), ?_, ih (i+1) (fun e he => hk e (by simp [he])) hp.2⟩
    rintro ⟨j, e, he, hh⟩
    have hem : e ∈ ds := List.mem_of_getElem? he
    have h1 := hk d (by simp)
    have h2 := hk e (by simp [hem])
    have h3 := hp.1 e hem
    unfold handle at hh
    cases hdk : d.kind <;> cases hek : e.kind <;> simp_all
    omega

/-- `simInfo` is determined by the launches. -/
def infoOf (task : Nat → Option Nat) (info : Nat → Option (Nat → Option V)) :
    Nat → List ((What × Nat → Option V) × (Nat → Option V)) → Nat → Option (Nat → Option V)
  | _, [] => info
  | i, l :: ls => infoOf task (match task i with
      | some r => upd info r (some l.2)
      | none => info) (i + 1) ls

theorem infoOf_append (task : Nat → Option Nat) (info : Nat → Option (Nat → Option V))
    (i : Nat) (a b) : infoOf task info i (a ++ b) = infoOf task (infoOf task info i a) (i + a.length) b := by
  induction a generalizing info i with
  | nil => rfl
  | cons x a ih =>
    simp only [List.cons_append, infoOf, ih, List.length_cons]
    rw [show i + 1 + a.length = i + (a.length + 1) by omega]

theorem step_info (dims : List (Dim V)) (task : Nat → Option Nat) (info0) (s s' : St V)
    (h : step dims task s = some s') (hinv : s.simInfo = infoOf task info0 0 s.launches) :
    s'.simInfo = infoOf task info0 0 s'.launches := by
  unfold step at h
  split at h
  · cases h
  · split at h
    · simp only at h
      split at h <;> (injection h with h; subst h; exact hinv)
    · injection h with h; subst h
      simp only
      rw [infoOf_append, ← hinv]
      simp only [infoOf, Nat.zero_add]
      cases task s.launches.length <;> rfl

theorem Steps.info {dims : List (Dim V)} {task : Nat → Option Nat} {info0} {s s' : St V}
    (h : Steps dims task s s') (hinv : s.simInfo = infoOf task info0 0 s.launches) :
    s'.simInfo = infoOf task info0 0 s'.launches := by
  induction h with
  | refl => exact hinv
  | head h1 _ ih => exact ih (step_info _ _ _ _ _ h1 hinv)

theorem infoOf_skip (task : Nat → Option Nat) (info) (i : Nat) (ls) (r : Nat)
    (h : ∀ k, k < ls.length → task (i + k) ≠ some r) :
    infoOf (V := V) task info i ls r = info r := by
  induction ls generalizing info i with
  | nil => rfl
  | cons l ls ih =>
    simp only [infoOf]
    rw [ih _ _ (fun k hk => by
      have := h (k+1) (by simpa using hk); rwa [show i + (k + 1) = i + 1 + k by omega] at this)]
    have h0 := h 0 (by simp)
    cases ht : task i with
    | none => rfl
    | some r' =>
      simp only [upd]
      rw [if_neg]
      rintro rfl
      exact h0 (by simpa using ht)

theorem infoOf_get (task : Nat → Option Nat) (info) (i : Nat) (ls) (n r : Nat)
    (l : (What × Nat → Option V) × (Nat → Option V)) (hl : ls[n]? = some l) (ht : task (i + n) = some r)
    (hinj : ∀ k, n < k → k < ls.length → task (i + k) ≠ some r) :
    infoOf (V := V) task info i ls r = some l.2 := by
  induction ls generalizing info i n with
  | nil => simp at hl
  | cons x ls ih =>
    cases n with
    | zero =>
      simp at hl; subst hl
      simp only [infoOf]
      rw [infoOf_skip]
      · simp at ht; rw [ht]; simp [upd]
      · intro k hk
        have := hinj (k+1) (by omega) (by simpa using hk)
        rwa [show i + (k + 1) = i + 1 + k by omega] at this
    | succ n =>
      simp only [infoOf]
      apply ih _ _ n (by simpa using hl) (by rw [show i + 1 + n = i + (n + 1) by omega]; exact ht)
      intro k hk hk2
      have := hinj (k+1) (by omega) (by simpa using hk2)
      rwa [show i + (k + 1) = i + 1 + k by omega] at this

/-- Looking up a swept key: with distinct keys the i-th key holds the i-th value. -/
theorem applyCombo_notin {K : Type} [DecidableEq K] (ks : List K) (vs : List V) (f : K → Option V) (k : K)
    (h : k ∉ ks) : applyCombo f ks vs k = f k := by
  induction ks generalizing vs f with
  | nil => cases vs <;> rfl
  | cons k' ks ih =>
    cases vs with
    | nil => rfl
    | cons v vs =>
      simp only [List.mem_cons, not_or] at h
      simp only [applyCombo]
      rw [ih _ _ h.2]; simp [h.1]

theorem applyCombo_get {K : Type} [DecidableEq K] (ks : List K) (vs : List V) (f : K → Option V)
    (hn : ks.Nodup) (hl : vs.length = ks.length) (i : Nat) (k : K) (hk : ks[i]? = some k) :
    applyCombo f ks vs k = vs[i]? := by
  induction ks generalizing vs f i with
  | nil => simp at hk
  | cons k' ks ih =>
    cases vs with
    | nil => simp at hl
    | cons v vs =>
      rw [List.nodup_cons] at hn
      simp only [applyCombo]
      cases i with
      | zero =>
        simp at hk; subst hk
        rw [applyCombo_notin _ _ _ _ hn.1]; simp
      | succ i =>
        rw [ih vs _ hn.2 (by simpa using hl) i (by simpa using hk)]; simp

end Lemmas.Stepper
