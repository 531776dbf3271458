import Verif.Model.LogMerge
import Mathlib.Data.List.Nodup
import Mathlib.Data.List.Pairwise
/-
C20: merging log data concatenates runs.
-/
namespace Props.LogMerge
open Model.LogMerge
variable {V : Type}

/-- The contents of a column; the empty list if there is no such column. -/
def column (h : Heap V) (c : Cols) (k : String) : List V :=
  match c.lookup k with
  | some a => h.get a
  | none => []

def stepsOf : Option Log → Cols | some l => l.stepset | none => []
def dataOf : Option Log → Cols | some l => l.dataset | none => []
def countOf : Option Log → Nat | some l => l.stepCount | none => 0
def addrs : Option Log → List Nat := fun l => (stepsOf l).map Prod.snd ++ (dataOf l).map Prod.snd

/-- The logs are separately read: every column of every log is a list object of its own, and within a log the names
of the step columns (and of the data columns) are distinct. -/
structure Separate (h : Heap V) (logs : List (Option Log)) : Prop where
  addr_nodup : (logs.flatMap addrs).Nodup
  addr_old : ∀ a ∈ logs.flatMap addrs, a < h.next
  keys : ∀ l ∈ logs, ((stepsOf l).map Prod.fst).Nodup ∧ ((dataOf l).map Prod.fst).Nodup

theorem lookup_append_single (c : Cols) (k k' : String) (a : Nat) (hn : c.lookup k = none) :
    (c ++ [(k, a)]).lookup k' = if k' = k then some a else c.lookup k' := by
  induction c with
  | nil =>
    by_cases h : k' = k
    · simp [List.lookup, h]
    · have : (k' == k) = false := by simpa using h
      simp [List.lookup, h, this]
  | cons x c ih =>
    rcases x with ⟨k0, a0⟩
    by_cases hk0 : k = k0
    · subst hk0; simp [List.lookup] at hn
    · have hb : (k == k0) = false := by simpa using hk0
      simp only [List.lookup, hb] at hn
      simp only [List.cons_append, List.lookup]
      by_cases h : k' = k0
      · subst h
        have : ¬ k' = k := fun hh => hk0 hh.symm
        simp [this]
      · have hb' : (k' == k0) = false := by simpa using h
        simp only [hb', ih hn]

theorem mem_of_lookup' {l : Cols} {x : String} {y : Nat} (h : l.lookup x = some y) : (x, y) ∈ l := by
  induction l with
  | nil => simp at h
  | cons q l ih =>
    rcases q with ⟨a, b⟩
    by_cases hx : x = a
    · subst hx; simp [List.lookup] at h; simp [h]
    · have : (x == a) = false := by simpa using hx
      simp [List.lookup, this] at h
      exact List.mem_cons_of_mem _ (ih h)

/-- `get` at a put. -/
theorem put_get (h : Heap V) (a b : Nat) (v : List V) : (h.put a v).get b = if b = a then v else h.get b := rfl

/-- Values held under `keep` addresses are preserved, columns grow as specified: one pass of `addStep`. -/
theorem addStep_fold (xs : Cols) (h : Heap V) (c : Cols) (hk : (xs.map Prod.fst).Nodup)
    (ha : (c.map Prod.snd ++ xs.map Prod.snd).Nodup) :
    let r := xs.foldl addStep (h, c)
    r.1.next = h.next ∧ (∀ a ∈ r.2.map Prod.snd, a ∈ c.map Prod.snd ∨ a ∈ xs.map Prod.snd) ∧
      (r.2.map Prod.snd).Nodup ∧
      (∀ a, a ∉ c.map Prod.snd → r.1.get a = h.get a) ∧
      (∀ k, column r.1 r.2 k = column h c k ++ column h xs k) := by
  induction xs generalizing h c with
  | nil => simp [column]; simpa using ha
  | cons x xs ih =>
    rcases x with ⟨k, a⟩
    simp only [List.map_cons, List.nodup_cons] at hk
    rw [List.foldl_cons]
    have hac : a ∉ c.map Prod.snd := by
      rw [List.nodup_append] at ha
      intro h1; exact ha.2.2 a h1 a (by simp) rfl
    have haxs : a ∉ xs.map Prod.snd := by
      rw [List.nodup_append] at ha
      have := ha.2.1
      simp only [List.map_cons, List.nodup_cons] at this
      exact this.1
    have hxsn : xs.lookup k = none := by
      cases hl : xs.lookup k with
      | none => rfl
      | some y => exact absurd (List.mem_map.mpr ⟨_, mem_of_lookup' hl, rfl⟩) hk.1
    have hcol_cons : ∀ (h' : Heap V) (k' : String), column h' ((k, a) :: xs) k' = if k' = k then h'.get a else column h' xs k' := by
      intro h' k'
      unfold column
      by_cases hh : k' = k
      · subst hh; simp [List.lookup]
      · have : (k' == k) = false := by simpa using hh
        simp [List.lookup, this, hh]
    cases hl : c.lookup k with
    | none =>
      have e : addStep (h, c) (k, a) = (h, c ++ [(k, a)]) := by simp [addStep, hl]
      rw [e]
      obtain ⟨h1, h2, h3, h4, h5⟩ := ih h (c ++ [(k, a)]) hk.2 (by simpa using ha)
      refine ⟨h1, ?_, h3, ?_, ?_⟩
      · intro b hb
        rcases h2 b hb with h | h
        · simp only [List.map_append, List.map_cons, List.map_nil, List.mem_append, List.mem_singleton] at h
          rcases h with h | rfl
          · exact Or.inl h
          · right; simp
        · right; simp only [List.map_cons, List.mem_cons]; exact Or.inr h
      · intro b hb
        by_cases hba : b = a
        · -- the list object of x is now in the result: it may be extended only by a later column of the same name,
          -- and there is none in this log
          subst hba
          have := h5 k
          have hc1 : column h (c ++ [(k, b)]) k = h.get b := by
            unfold column; rw [lookup_append_single c k k b hl]; simp
          have hc2 : column h xs k = [] := by unfold column; rw [hxsn]
          rw [hc1, hc2, List.append_nil] at this
          -- the address of k in the result is b
          have hkeep : ∀ (ys : Cols) (hh : Heap V) (cc : Cols), cc.lookup k = some b →
              (ys.foldl addStep (hh, cc)).2.lookup k = some b := by
            intro ys
            induction ys with
            | nil => intro hh cc hcc; exact hcc
            | cons y ys ihy =>
              intro hh cc hcc
              rw [List.foldl_cons]
              unfold addStep
              cases hly : cc.lookup y.1 with
              | none =>
                simp only
                apply ihy
                rw [show y = (y.1, y.2) from rfl, lookup_append_single cc y.1 k y.2 hly]
                by_cases hky : k = y.1
                · rw [← hky, hcc] at hly; cases hly
                · simp [hky, hcc]
              | some z => simp only; exact ihy _ _ hcc
          have hk' := hkeep xs h (c ++ [(k, b)]) (by rw [lookup_append_single c k k b hl]; simp)
          unfold column at this
          rw [hk'] at this
          exact this
        · exact h4 b (by simp only [List.map_append, List.map_cons, List.map_nil, List.mem_append, List.mem_singleton]; rintro (h | h); exacts [hb h, hba h])
      · intro k'
        rw [h5 k', hcol_cons]
        have hc1 : column h (c ++ [(k, a)]) k' = if k' = k then h.get a else column h c k' := by
          unfold column; rw [lookup_append_single c k k' a hl]; by_cases hh : k' = k <;> simp [hh]
        rw [hc1]
        by_cases hh : k' = k
        · subst hh
          have hc2 : column h xs k' = [] := by unfold column; rw [hxsn]
          have hc3 : column h c k' = [] := by unfold column; rw [hl]
          simp [hc2, hc3]
        · simp [hh]
    | some b =>
      have e : addStep (h, c) (k, a) = (h.put b (h.get b ++ h.get a), c) := by simp [addStep, hl]
      rw [e]
      have hbc : b ∈ c.map Prod.snd := List.mem_map.mpr ⟨_, mem_of_lookup' hl, rfl⟩
      have ha' : (c.map Prod.snd ++ xs.map Prod.snd).Nodup := by
        rw [List.nodup_append] at ha ⊢
        refine ⟨ha.1, ?_, fun x hx y hy => ha.2.2 x hx y (by simp only [List.map_cons, List.mem_cons]; exact Or.inr hy)⟩
        have := ha.2.1
        simp only [List.map_cons, List.nodup_cons] at this
        exact this.2
      obtain ⟨h1, h2, h3, h4, h5⟩ := ih (h.put b (h.get b ++ h.get a)) c hk.2 ha'
      refine ⟨h1, ?_, h3, ?_, ?_⟩
      · intro z hz
        rcases h2 z hz with h | h
        · exact Or.inl h
        · right; simp only [List.map_cons, List.mem_cons]; exact Or.inr h
      · intro z hz
        rw [h4 z hz, put_get, if_neg]
        rintro rfl; exact hz hbc
      · intro k'
        rw [h5 k', hcol_cons]
        -- columns of xs are untouched by the put (their addresses are not in c)
        have hxs : column (h.put b (h.get b ++ h.get a)) xs k' = column h xs k' := by
          unfold column
          cases hlx : xs.lookup k' with
          | none => rfl
          | some y =>
            simp only [put_get]
            rw [if_neg]
            rintro rfl
            rw [List.nodup_append] at ha'
            exact ha'.2.2 y hbc y (List.mem_map.mpr ⟨_, mem_of_lookup' hlx, rfl⟩) rfl
        rw [hxs]
        by_cases hh : k' = k
        · subst hh
          have hc2 : column h xs k' = [] := by unfold column; rw [hxsn]
          rw [hc2]
          simp [column, hl, put_get]
        · have : column (h.put b (h.get b ++ h.get a)) c k' = column h c k' := by
            unfold column
            cases hlc : c.lookup k' with
            | none => rfl
            | some y =>
              simp only [put_get]
              rw [if_neg]
              rintro rfl
              -- two keys with one address contradict Nodup
              rw [List.nodup_append] at ha'
              have hinj := List.inj_on_of_nodup_map ha'.1 (mem_of_lookup' hl) (mem_of_lookup' hlc) rfl
              simp only [Prod.mk.injEq] at hinj
              exact hh hinj.1.symm
          rw [this]; simp [hh]

theorem addData_fold (B : Nat) (xs : Cols) (h : Heap V) (c : Cols) (hk : (xs.map Prod.fst).Nodup)
    (hx : ∀ a ∈ xs.map Prod.snd, a < B) (hB : B ≤ h.next)
    (hc : ∀ a ∈ c.map Prod.snd, B ≤ a ∧ a < h.next) (hn : (c.map Prod.snd).Nodup) :
    let r := xs.foldl addData (h, c)
    h.next ≤ r.1.next ∧ (∀ a ∈ r.2.map Prod.snd, B ≤ a ∧ a < r.1.next) ∧ (r.2.map Prod.snd).Nodup ∧
      (∀ a, a < B → r.1.get a = h.get a) ∧
      (∀ k, column r.1 r.2 k = column h c k ++ column h xs k) := by
  induction xs generalizing h c with
  | nil => simp [column]; exact ⟨by simpa using hc, hn⟩
  | cons x xs ih =>
    rcases x with ⟨k, a⟩
    simp only [List.map_cons, List.nodup_cons] at hk
    rw [List.foldl_cons]
    have haB : a < B := hx a (by simp)
    have hxsn : xs.lookup k = none := by
      cases hl : xs.lookup k with
      | none => rfl
      | some y => exact absurd (List.mem_map.mpr ⟨_, mem_of_lookup' hl, rfl⟩) hk.1
    have hcol_cons : ∀ (h' : Heap V) (k' : String), column h' ((k, a) :: xs) k' = if k' = k then h'.get a else column h' xs k' := by
      intro h' k'
      unfold column
      by_cases hh : k' = k
      · subst hh; simp [List.lookup]
      · have : (k' == k) = false := by simpa using hh
        simp [List.lookup, this, hh]
    -- a write at or above B does not touch the columns of xs
    have hxs : ∀ (h' : Heap V), (∀ z, z < B → h'.get z = h.get z) → ∀ k', column h' xs k' = column h xs k' := by
      intro h' hh k'
      unfold column
      cases hlx : xs.lookup k' with
      | none => rfl
      | some y => exact hh y (hx y (List.mem_map.mpr ⟨_, List.mem_cons_of_mem _ (mem_of_lookup' hlx), rfl⟩))
    have hx' : ∀ a ∈ xs.map Prod.snd, a < B := fun b hb => hx b (by simp only [List.map_cons, List.mem_cons]; exact Or.inr hb)
    cases hl : c.lookup k with
    | none =>
      have e : addData (h, c) (k, a) = (h.alloc (h.get a), c ++ [(k, h.next)]) := by
        simp [addData, hl]
      rw [e]
      have hput : ∀ z, z < h.next → (h.alloc (h.get a)).get z = h.get z := by
        intro z hz; show (h.put h.next (h.get a)).get z = _; rw [put_get, if_neg (by omega)]
      obtain ⟨h1, h2, h3, h4, h5⟩ := ih (h.alloc (h.get a)) (c ++ [(k, h.next)]) hk.2 hx'
        (by show B ≤ h.next + 1; omega)
        (by
          intro z hz
          show B ≤ z ∧ z < h.next + 1
          simp only [List.map_append, List.map_cons, List.map_nil, List.mem_append, List.mem_singleton] at hz
          rcases hz with hz | rfl
          · have := hc z hz; omega
          · omega)
        (by
          simp only [List.map_append, List.map_cons, List.map_nil]
          rw [List.nodup_append]
          refine ⟨hn, by simp, ?_⟩
          intro z hz y hy
          simp only [List.mem_singleton] at hy
          have := hc z hz; omega)
      have hal : (h.alloc (h.get a)).next = h.next + 1 := rfl
      refine ⟨by omega, h2, h3, ?_, ?_⟩
      · intro z hz; rw [h4 z hz]; exact hput z (by omega)
      · intro k'
        rw [h5 k', hcol_cons, hxs _ (fun z hz => hput z (by omega))]
        have hc1 : column (h.alloc (h.get a)) (c ++ [(k, h.next)]) k' =
            if k' = k then h.get a else column h c k' := by
          unfold column; rw [lookup_append_single c k k' h.next hl]
          by_cases hh : k' = k
          · simp only [hh, if_true]
            show (h.put h.next (h.get a)).get h.next = _
            simp [put_get]
          · simp only [hh, if_false]
            cases hlc : c.lookup k' with
            | none => rfl
            | some y => exact hput y (hc y (List.mem_map.mpr ⟨_, mem_of_lookup' hlc, rfl⟩)).2
        rw [hc1]
        by_cases hh : k' = k
        · subst hh
          have hc2 : column h xs k' = [] := by unfold column; rw [hxsn]
          have hc3 : column h c k' = [] := by unfold column; rw [hl]
          simp [hc2, hc3]
        · simp [hh]
    | some b =>
      have e : addData (h, c) (k, a) = (h.put b (h.get b ++ h.get a), c) := by simp [addData, hl]
      rw [e]
      have hb := hc b (List.mem_map.mpr ⟨_, mem_of_lookup' hl, rfl⟩)
      obtain ⟨h1, h2, h3, h4, h5⟩ := ih (h.put b (h.get b ++ h.get a)) c hk.2 hx' hB hc hn
      have hput : ∀ z, z < B → (h.put b (h.get b ++ h.get a)).get z = h.get z := by
        intro z hz; rw [put_get, if_neg (by omega)]
      refine ⟨h1, h2, h3, fun z hz => by rw [h4 z hz, hput z hz], ?_⟩
      intro k'
      rw [h5 k', hcol_cons, hxs _ hput]
      by_cases hh : k' = k
      · subst hh
        have hc2 : column h xs k' = [] := by unfold column; rw [hxsn]
        rw [hc2]
        simp [column, hl, put_get]
      · have : column (h.put b (h.get b ++ h.get a)) c k' = column h c k' := by
          unfold column
          cases hlc : c.lookup k' with
          | none => rfl
          | some y =>
            simp only [put_get]
            rw [if_neg]
            rintro rfl
            have hinj := List.inj_on_of_nodup_map hn (mem_of_lookup' hl) (mem_of_lookup' hlc) rfl
            simp only [Prod.mk.injEq] at hinj
            exact hh hinj.1.symm
        rw [this]; simp [hh]

/-- C20: for separately read logs the merged step columns and data columns are the concatenations, in order, of the
columns of the logs (a log without the column contributes nothing), and the step count is the sum. -/
theorem C20_merge_concatenates (h : Heap V) (logs : List (Option Log)) (hs : Separate h logs) :
    (∀ k, column (merge h logs).1 (merge h logs).2.stepset k = logs.flatMap (fun l => column h (stepsOf l) k)) ∧
    (∀ k, column (merge h logs).1 (merge h logs).2.dataset k = logs.flatMap (fun l => column h (dataOf l) k)) ∧
    (merge h logs).2.stepCount = (logs.map countOf).sum := by
  -- generalised over the logs already merged
  have key : ∀ (rest done : List (Option Log)) (g : Heap V) (acc : Log),
      logs = done ++ rest → h.next ≤ g.next →
      (∀ a ∈ acc.stepset.map Prod.snd, a ∈ done.flatMap addrs) → (acc.stepset.map Prod.snd).Nodup →
      (∀ a ∈ acc.dataset.map Prod.snd, h.next ≤ a ∧ a < g.next) → (acc.dataset.map Prod.snd).Nodup →
      (∀ a ∈ rest.flatMap addrs, g.get a = h.get a) →
      (∀ k, column (rest.foldl addLog (g, acc)).1 (rest.foldl addLog (g, acc)).2.stepset k =
        column g acc.stepset k ++ rest.flatMap (fun l => column h (stepsOf l) k)) ∧
      (∀ k, column (rest.foldl addLog (g, acc)).1 (rest.foldl addLog (g, acc)).2.dataset k =
        column g acc.dataset k ++ rest.flatMap (fun l => column h (dataOf l) k)) ∧
      (rest.foldl addLog (g, acc)).2.stepCount = acc.stepCount + (rest.map countOf).sum := by
    intro rest
    induction rest with
    | nil => intro done g acc _ _ _ _ _ _ _; simp
    | cons l rest ih =>
      intro done g acc hl hnext hst hstn hda hdan hget
      rw [List.foldl_cons]
      cases l with
      | none =>
        have e : addLog (g, acc) none = (g, acc) := rfl
        rw [e]
        obtain ⟨h1, h2, h3⟩ := ih (done ++ [none]) g acc (by simp [hl]) hnext
          (by intro a ha; have := hst a ha; simp [this]) hstn hda hdan
          (by intro a ha; exact hget a (by simp [ha]))
        have hc : ∀ k, column h (stepsOf none) k = [] := fun k => rfl
        have hd : ∀ k, column h (dataOf none) k = [] := fun k => rfl
        refine ⟨fun k => by rw [h1 k]; simp [hc], fun k => by rw [h2 k]; simp [hd], by rw [h3]; simp [countOf]⟩
      | some l =>
        have hnd := hs.addr_nodup
        have hold := hs.addr_old
        have hkeys := hs.keys (some l) (by rw [hl]; simp)
        rw [hl] at hnd
        simp only [List.flatMap_append, List.flatMap_cons] at hnd
        have hmem : ∀ a, a ∈ addrs (some l) → a ∈ logs.flatMap addrs := by
          intro a ha; rw [hl]; simp [ha]
        have hstl : (l.stepset.map Prod.snd).Nodup ∧ (l.dataset.map Prod.snd).Nodup ∧
            (∀ a ∈ l.stepset.map Prod.snd, a ∉ l.dataset.map Prod.snd) := by
          rw [List.nodup_append, List.nodup_append] at hnd
          have := hnd.2.1.1
          simp only [addrs, stepsOf, dataOf] at this
          rw [List.nodup_append] at this
          exact ⟨this.1, this.2.1, fun a h1 h2 => this.2.2 a h1 a h2 rfl⟩
        have hdone : ∀ a ∈ done.flatMap addrs, a ∉ addrs (some l) ∧ a ∉ rest.flatMap addrs := by
          intro a ha
          rw [List.nodup_append] at hnd
          exact ⟨fun h' => hnd.2.2 a ha a (by simp [h']) rfl, fun h' => hnd.2.2 a ha a (by simp only [List.mem_append]; exact Or.inr h') rfl⟩
        have hlrest : ∀ a ∈ addrs (some l), a ∉ rest.flatMap addrs := by
          intro a ha h'
          rw [List.nodup_append, List.nodup_append] at hnd
          exact hnd.2.1.2.2 a ha a h' rfl
        have hstA : (acc.stepset.map Prod.snd ++ l.stepset.map Prod.snd).Nodup := by
          rw [List.nodup_append]
          refine ⟨hstn, hstl.1, ?_⟩
          rintro a h1 b h2 rfl
          exact (hdone a (hst a h1)).1 (by simp only [addrs, stepsOf, List.mem_append]; exact Or.inl h2)
        obtain ⟨s1, s2, s3, s4, s5⟩ := addStep_fold l.stepset g acc.stepset hkeys.1 hstA
        generalize hS : l.stepset.foldl addStep (g, acc.stepset) = S at *
        obtain ⟨d1, d2, d3, d4, d5⟩ := addData_fold h.next l.dataset S.1 acc.dataset hkeys.2
          (by intro a ha; exact hold a (hmem a (by simp only [addrs, dataOf, List.mem_append]; exact Or.inr ha)))
          (by rw [s1]; exact hnext)
          (by intro a ha; rw [s1]; exact hda a ha) hdan
        generalize hD : l.dataset.foldl addData (S.1, acc.dataset) = D at *
        have e : addLog (g, acc) (some l) = (D.1, ⟨S.2, D.2, acc.stepCount + l.stepCount⟩) := by
          simp only [addLog, hS, hD]
        rw [e]
        have hSold : ∀ a ∈ S.2.map Prod.snd, a < h.next := by
          intro a ha
          rcases s2 a ha with h' | h'
          · refine hold a ?_
            rw [hl, List.flatMap_append, List.mem_append]
            exact Or.inl (hst a h')
          · exact hold a (hmem a (by simp only [addrs, stepsOf, List.mem_append]; exact Or.inl h'))
        obtain ⟨r1, r2, r3⟩ := ih (done ++ [some l]) D.1 ⟨S.2, D.2, acc.stepCount + l.stepCount⟩ (by simp [hl])
          (by omega)
          (by
            intro a ha
            rw [List.flatMap_append, List.mem_append]
            rcases s2 a ha with h' | h'
            · exact Or.inl (hst a h')
            · right; simp only [List.flatMap_cons, List.flatMap_nil, List.append_nil, addrs, stepsOf, List.mem_append]; exact Or.inl h')
          s3 d2 d3
          (by
            intro a ha
            have ha0 : a < h.next := hold a (by
              rw [hl, List.flatMap_append, List.mem_append]; right
              simp only [List.flatMap_cons, List.mem_append]; exact Or.inr ha)
            rw [d4 a ha0, s4 a (fun h' => (hdone a (hst a h')).2 ha)]
            exact hget a (by simp only [List.flatMap_cons, List.mem_append]; exact Or.inr ha))
        have hcolS : ∀ k, column D.1 S.2 k = column S.1 S.2 k := by
          intro k; unfold column
          cases hlk : S.2.lookup k with
          | none => rfl
          | some a => exact d4 a (hSold a (List.mem_map.mpr ⟨_, mem_of_lookup' hlk, rfl⟩))
        have hcolg : ∀ k, column g l.stepset k = column h l.stepset k := by
          intro k; unfold column
          cases hlk : l.stepset.lookup k with
          | none => rfl
          | some a =>
            refine hget a ?_
            simp only [List.flatMap_cons, List.mem_append, addrs, stepsOf]
            exact Or.inl (Or.inl (List.mem_map.mpr ⟨_, mem_of_lookup' hlk, rfl⟩))
        have hcolA : ∀ k, column S.1 acc.dataset k = column g acc.dataset k := by
          intro k; unfold column
          cases hlk : acc.dataset.lookup k with
          | none => rfl
          | some a =>
            refine s4 a (fun h' => ?_)
            have h1 := hda a (List.mem_map.mpr ⟨_, mem_of_lookup' hlk, rfl⟩)
            have h2 := hold a (by rw [hl, List.flatMap_append, List.mem_append]; exact Or.inl (hst a h'))
            omega
        have hcolD : ∀ k, column S.1 l.dataset k = column h l.dataset k := by
          intro k; unfold column
          cases hlk : l.dataset.lookup k with
          | none => rfl
          | some a =>
            have hal : a ∈ addrs (some l) := by
              simp only [addrs, dataOf, List.mem_append]
              exact Or.inr (List.mem_map.mpr ⟨_, mem_of_lookup' hlk, rfl⟩)
            show S.1.get a = h.get a
            rw [s4 a (fun h' => (hdone a (hst a h')).1 hal)]
            exact hget a (by simp only [List.flatMap_cons, List.mem_append]; exact Or.inl hal)
        refine ⟨?_, ?_, ?_⟩
        · intro k
          rw [r1 k, hcolS, s5 k, hcolg k, List.flatMap_cons, List.append_assoc]; rfl
        · intro k
          rw [r2 k, d5 k, hcolA, hcolD, List.flatMap_cons, List.append_assoc]; rfl
        · rw [r3]; simp [countOf]; omega
  obtain ⟨h1, h2, h3⟩ := key logs [] h ⟨[], [], 0⟩ rfl (Nat.le_refl _) (by simp) (by simp) (by simp) (by simp) (by simp)
  refine ⟨fun k => ?_, fun k => ?_, ?_⟩
  · have := h1 k; simpa [merge, column] using this
  · have := h2 k; simpa [merge, column] using this
  · simpa [merge] using h3

/-- Two logs with a step column and a data column each. -/
def heapEx : Heap Nat := ⟨fun a => if a = 0 then [1] else if a = 1 then [10] else if a = 2 then [2] else if a = 3 then [20] else [], 4⟩
def logA : Log := ⟨[("run", 0)], [("vout", 1)], 1⟩
def logB : Log := ⟨[("run", 2)], [("vout", 3)], 1⟩

example : Separate heapEx [some logA, none, some logB] where
  addr_nodup := by decide
  addr_old := by decide
  keys := by decide

example : column (merge heapEx [some logA, none, some logB]).1 (merge heapEx [some logA, none, some logB]).2.stepset "run" = [1, 2] := by
  decide +kernel

/-- C20 counter-example on the unchanged code: adding the same log object three times gives four copies of its step
column (the result holds the log's own list, which is extended in place) but three copies of the data. -/
theorem C20_same_log_three_times :
    let r := merge heapEx [some logA, some logA, some logA]
    column r.1 r.2.stepset "run" = [1, 1, 1, 1] ∧ column r.1 r.2.dataset "vout" = [10, 10, 10] := by
  decide +kernel

/-- C20 counter-example: merging modifies the first log itself (its step column now has the runs of all logs). -/
theorem C20_merge_modifies_first_log :
    column (merge heapEx [some logA, some logB]).1 logA.stepset "run" = [1, 2] := by decide +kernel

end Props.LogMerge
