import Verif.Model.RawFile
import Verif.Spec.RawLayout
import Mathlib.Data.List.Basic
import Mathlib.Data.List.Nodup
import Mathlib.Tactic.Push
import Mathlib.Tactic.Tauto
import Mathlib.Tactic.Ring
import Mathlib.Tactic.SplitIfs
/-
C25: reading some of the traces of a RAW file.
-/
namespace Props.RawRead
open Model.RawFile
open Spec.RawLayout (samples fastOffset pointOffset)

variable {V : Type} [DecidableEq V]

/-- The samples of trace `i` of a plot, by the layout of its data section. -/
def traceSamples (p : Plot) (i : Nat) : List Word :=
  samples p.fast (p.info.map (fun t => t.num.width)) p.nPoints p.data i

theorem lookup_put {X : Type} (d : List (Str × X)) (k k' : Str) (v : X) :
    (put d k v).lookup k' = if k' = k then some v else d.lookup k' := by
  induction d with
  | nil =>
    simp only [put, List.lookup]
    by_cases h : k' = k
    · simp [h]
    · rw [beq_false_of_ne h, if_neg h]
  | cons a d ih =>
    obtain ⟨ka, va⟩ := a
    simp only [put]
    by_cases h1 : ka = k
    · subst h1
      simp only [if_pos, List.lookup]
      by_cases h2 : k' = ka
      · simp [h2]
      · rw [beq_false_of_ne h2, if_neg h2]
    · rw [if_neg h1]
      simp only [List.lookup]
      by_cases h2 : k' = ka
      · subst h2; simp [h1]
      · rw [beq_false_of_ne h2]; exact ih

theorem fromBuffer_eq (w n : Nat) (data : List Byte) (pos : Nat) :
    fromBuffer w n ((data.drop pos).take (w * n)) = (List.range n).map (fun j => (data.drop (pos + j * w)).take w) := by
  unfold fromBuffer
  apply List.map_congr_left
  intro j hj
  have hj := List.mem_range.mp hj
  rw [List.drop_take, List.take_take, List.drop_drop]
  congr 1
  have : (j + 1) * w ≤ n * w := Nat.mul_le_mul_right w hj
  have h2 : (j + 1) * w = j * w + w := by ring
  have h3 : n * w = w * n := by ring
  omega

theorem readBytes_ok (data : List Byte) (pos n : Nat) (h : pos + n ≤ data.length) :
    readBytes data pos n = .ok ((data.drop pos).take n) := by
  unfold readBytes
  simp only
  rw [if_neg]
  simp
  omega

theorem readBytes_inv (data : List Byte) (pos n : Nat) (r : List Byte) (h : readBytes data pos n = .ok r) :
    r = (data.drop pos).take n := by
  unfold readBytes at h
  simp only at h
  split_ifs at h with h1
  injection h with h
  exact h.symm

/-- The words of the `j`-th of the traces `is` stored from position `prev` on, one trace after the other. -/
def fastWords (p : Plot) (is : List Info) (prev j : Nat) (w : Nat) : List Word :=
  (List.range p.nPoints).map (fun m =>
    (p.data.drop (prev + p.nPoints * ((is.map (fun t => t.num.width)).take j).sum + m * w)).take w)

theorem fastLoop_spec (p : Plot) (names : List Str) : ∀ (is : List Info) (prev : Nat) (s s' : St),
    (is.map Info.name).Nodup → fastLoop p names is prev s = .ok s' →
    s'.axis = s.axis ∧
    (∀ (j : Nat) (t : Info), is[j]? = some t → s'.reads.lookup t.name =
      if t.name ∈ names then some ⟨false, t.num, fastWords p is prev j t.num.width, none⟩ else s.reads.lookup t.name) ∧
    (∀ k, k ∉ is.map Info.name → s'.reads.lookup k = s.reads.lookup k) := by
  intro is
  induction is with
  | nil =>
    intro prev s s' _ h
    simp only [fastLoop] at h
    injection h with h; subst h
    exact ⟨rfl, by simp, fun _ _ => rfl⟩
  | cons i is ih =>
    intro prev s s' hnd h
    rw [List.map_cons, List.nodup_cons] at hnd
    have hshift : ∀ j w, fastWords p is (prev + i.num.width * p.nPoints) j w = fastWords p (i :: is) prev (j + 1) w := by
      intro j w
      unfold fastWords
      apply List.map_congr_left
      intro m _
      rw [List.map_cons, List.take_succ_cons, List.sum_cons]
      congr 2
      ring
    simp only [fastLoop] at h
    by_cases hm : i.name ∈ names
    · rw [if_pos hm] at h
      cases hr : readBytes p.data prev (i.num.width * p.nPoints) with
      | error e => rw [hr] at h; exact absurd h (by simp)
      | ok raw =>
        rw [hr] at h
        simp only at h
        obtain ⟨h1, h2, h3⟩ := ih _ _ _ hnd.2 h
        refine ⟨h1, ?_, ?_⟩
        · intro j t hj
          cases j with
          | zero =>
            simp only [List.getElem?_cons_zero, Option.some.injEq] at hj
            subst hj
            rw [h3 _ hnd.1, lookup_put, if_pos rfl, if_pos hm, readBytes_inv _ _ _ _ hr, fromBuffer_eq]
            simp [fastWords]
          | succ j =>
            rw [List.getElem?_cons_succ] at hj
            have hne : t.name ≠ i.name := by
              intro he
              exact hnd.1 (he ▸ List.mem_map_of_mem (List.mem_of_getElem? hj))
            rw [h2 j t hj, hshift, lookup_put, if_neg hne]
        · intro k hk
          simp only [List.map_cons, List.mem_cons, not_or] at hk
          rw [h3 k hk.2, lookup_put, if_neg hk.1]
    · rw [if_neg hm] at h
      obtain ⟨h1, h2, h3⟩ := ih _ _ _ hnd.2 h
      refine ⟨h1, ?_, ?_⟩
      · intro j t hj
        cases j with
        | zero =>
          simp only [List.getElem?_cons_zero, Option.some.injEq] at hj
          subst hj
          rw [h3 _ hnd.1, if_neg hm]
        | succ j =>
          rw [List.getElem?_cons_succ] at hj
          rw [h2 j t hj, hshift]
      · intro k hk
        simp only [List.map_cons, List.mem_cons, not_or] at hk
        exact h3 k hk.2

theorem fastLoop_ok (p : Plot) (names : List Str) : ∀ (is : List Info) (prev : Nat) (s : St),
    prev + p.nPoints * recordSize is ≤ p.data.length → ∃ s', fastLoop p names is prev s = .ok s' := by
  intro is
  induction is with
  | nil => intro prev s _; exact ⟨s, rfl⟩
  | cons i is ih =>
    intro prev s h
    have hr : p.nPoints * recordSize (i :: is) = i.num.width * p.nPoints + p.nPoints * recordSize is := by
      simp only [recordSize, List.map_cons, List.sum_cons]; ring
    simp only [fastLoop]
    split_ifs
    · rw [readBytes_ok _ _ _ (by omega)]
      exact ih _ _ (by omega)
    · exact ih _ _ (by omega)

theorem normalLoop_false (val : NumType → Word → V) (p : Plot) (steps : Option Nat) (names : List Str) (col : Str → List Word) :
    ∀ (is : List Info) (s : St), (is.map Info.name).Nodup →
    ∃ s', normalLoop val p steps names col false is s = .ok s' ∧ s'.axis = s.axis ∧
      (∀ (j : Nat) (t : Info), is[j]? = some t → s'.reads.lookup t.name =
        if t.name ∈ names then some ⟨false, t.num, col t.name, none⟩ else s.reads.lookup t.name) ∧
      (∀ k, k ∉ is.map Info.name → s'.reads.lookup k = s.reads.lookup k) := by
  intro is
  induction is with
  | nil => intro s _; exact ⟨s, rfl, rfl, by simp, fun _ _ => rfl⟩
  | cons i is ih =>
    intro s hnd
    rw [List.map_cons, List.nodup_cons] at hnd
    simp only [normalLoop, Bool.false_eq_true, false_and, if_false]
    by_cases hm : i.name ∈ names
    · rw [if_pos hm]
      obtain ⟨s', h0, h1, h2, h3⟩ := ih { s with reads := put s.reads i.name ⟨false, i.num, col i.name, none⟩ } hnd.2
      refine ⟨s', h0, h1, ?_, ?_⟩
      · intro j t hj
        cases j with
        | zero =>
          simp only [List.getElem?_cons_zero, Option.some.injEq] at hj
          subst hj
          rw [h3 _ hnd.1, lookup_put, if_pos rfl, if_pos hm]
        | succ j =>
          rw [List.getElem?_cons_succ] at hj
          have hne : t.name ≠ i.name := by
            intro he
            exact hnd.1 (he ▸ List.mem_map_of_mem (List.mem_of_getElem? hj))
          rw [h2 j t hj, lookup_put, if_neg hne]
      · intro k hk
        simp only [List.map_cons, List.mem_cons, not_or] at hk
        rw [h3 k hk.2, lookup_put, if_neg hk.1]
    · rw [if_neg hm]
      obtain ⟨s', h0, h1, h2, h3⟩ := ih s hnd.2
      refine ⟨s', h0, h1, ?_, ?_⟩
      · intro j t hj
        cases j with
        | zero =>
          simp only [List.getElem?_cons_zero, Option.some.injEq] at hj
          subst hj
          rw [h3 _ hnd.1, if_neg hm]
        | succ j =>
          rw [List.getElem?_cons_succ] at hj
          rw [h2 j t hj]
      · intro k hk
        simp only [List.map_cons, List.mem_cons, not_or] at hk
        exact h3 k hk.2

theorem dtypes_names (hasAxis axisRead : Bool) (names : List Str) : ∀ (is : List Info) (first : Bool),
    (dtypes hasAxis axisRead names first is).map Field.name = is.map Info.name := by
  intro is
  induction is with
  | nil => intro first; rfl
  | cons i is ih =>
    intro first
    simp only [dtypes, List.map_cons, ih]
    congr 1
    split_ifs <;> rfl

theorem dtypes_widths (hasAxis axisRead : Bool) (names : List Str) : ∀ (is : List Info) (first : Bool),
    (dtypes hasAxis axisRead names first is).map Field.width = is.map (fun t => t.num.width) := by
  intro is
  induction is with
  | nil => intro first; rfl
  | cons i is ih =>
    intro first
    simp only [dtypes, List.map_cons, ih]
    congr 1
    split_ifs <;> rfl

theorem fieldAt_spec : ∀ (fs : List Field) (off j : Nat) (f : Field), (fs.map Field.name).Nodup → fs[j]? = some f →
    fieldAt f.name fs off = some (off + ((fs.map Field.width).take j).sum, f.width) := by
  intro fs
  induction fs with
  | nil => intro off j f _ h; exact absurd h (by simp)
  | cons g fs ih =>
    intro off j f hnd hj
    rw [List.map_cons, List.nodup_cons] at hnd
    cases j with
    | zero =>
      simp only [List.getElem?_cons_zero, Option.some.injEq] at hj
      subst hj
      simp [fieldAt]
    | succ j =>
      rw [List.getElem?_cons_succ] at hj
      have hne : g.name ≠ f.name := by
        intro he
        exact hnd.1 (he ▸ List.mem_map_of_mem (List.mem_of_getElem? hj))
      rw [fieldAt, if_neg hne, ih _ j f hnd.2 hj]
      simp only [List.map_cons, List.take_succ_cons, List.sum_cons]
      congr 2
      omega

theorem take_sum_le (l : List Nat) (i w : Nat) (h : l[i]? = some w) : (l.take i).sum + w ≤ l.sum := by
  induction l generalizing i with
  | nil => exact absurd h (by simp)
  | cons a l ih =>
    cases i with
    | zero =>
      simp only [List.getElem?_cons_zero, Option.some.injEq] at h
      simp [h]
    | succ i =>
      rw [List.getElem?_cons_succ] at h
      have := ih i h
      simp only [List.take_succ_cons, List.sum_cons]
      omega

theorem widths_get (info : List Info) (i : Nat) (t : Info) (hi : info[i]? = some t) :
    (info.map (fun t => t.num.width)).getD i 0 = t.num.width ∧ (info.map (fun t => t.num.width))[i]? = some t.num.width := by
  have h : (info.map (fun t => t.num.width))[i]? = some t.num.width := by rw [List.getElem?_map, hi]; rfl
  exact ⟨by rw [List.getD_eq_getElem?_getD, h]; rfl, h⟩

theorem column_spec (p : Plot) (hfast : p.fast = false) (hasAxis axisRead : Bool) (names : List Str)
    (hnd : (p.info.map Info.name).Nodup) (i : Nat) (t : Info) (hi : p.info[i]? = some t) :
    column (dtypes hasAxis axisRead names true p.info) p.nPoints ((p.data.drop 0).take (p.nPoints * recordSize p.info)) t.name
      = traceSamples p i := by
  let fs := dtypes hasAxis axisRead names true p.info
  have hn : fs.map Field.name = p.info.map Info.name := dtypes_names _ _ _ _ _
  have hw : fs.map Field.width = p.info.map (fun t => t.num.width) := dtypes_widths _ _ _ _ _
  have hfn : (fs.map Field.name)[i]? = some t.name := by rw [hn, List.getElem?_map, hi]; rfl
  have hfw : (fs.map Field.width)[i]? = some t.num.width := by rw [hw, List.getElem?_map, hi]; rfl
  rw [List.getElem?_map] at hfn hfw
  cases hf : fs[i]? with
  | none => rw [hf] at hfn; exact absurd hfn (by simp)
  | some f =>
    rw [hf] at hfn hfw
    simp only [Option.map_some, Option.some.injEq] at hfn hfw
    have hfa := fieldAt_spec fs 0 i f (by rw [hn]; exact hnd) hf
    rw [hfn, hfw, hw] at hfa
    unfold column
    show (match fieldAt t.name fs 0 with | none => _ | some (off, w) => _) = _
    rw [hfa]
    simp only
    unfold traceSamples samples
    apply List.map_congr_left
    intro j hj
    have hj := List.mem_range.mp hj
    rw [hfast]
    obtain ⟨hg, hg'⟩ := widths_get p.info i t hi
    simp only [Bool.false_eq_true, if_false, hg, pointOffset]
    rw [show List.map Field.width fs = p.info.map (fun t => t.num.width) from hw]
    have hle := take_sum_le _ _ _ hg'
    rw [List.drop_take, List.take_take, List.drop_drop]
    congr 1
    · unfold recordSize
      generalize (List.map (fun i => i.num.width) p.info).sum = R at *
      have h1 : (j + 1) * R ≤ p.nPoints * R := Nat.mul_le_mul_right R hj
      have h2 : (j + 1) * R = j * R + R := by ring
      omega
    · congr 1; omega

theorem mkAxis_ok (val : NumType → Word → V) (steps : Option Nat) (i : Info) (words : List Word) (ax : Loaded)
    (h : mkAxis val steps i words = .ok ax) : ax.isAxis = true ∧ ax.num = i.num ∧ ax.data = words := by
  unfold mkAxis at h
  cases steps with
  | none => injection h with h; subst h; exact ⟨rfl, rfl, rfl⟩
  | some n =>
    simp only at h
    split at h
    · exact absurd h (by simp)
    · exact absurd h (by simp)
    · injection h with h; subst h; exact ⟨rfl, rfl, rfl⟩

theorem fastWords_traceSamples (p : Plot) (hfast : p.fast = true) (i : Nat) (t : Info) (hi : p.info[i]? = some t) :
    fastWords p p.info 0 i t.num.width = traceSamples p i := by
  unfold fastWords traceSamples samples
  apply List.map_congr_left
  intro j _
  rw [hfast, (widths_get p.info i t hi).1]
  simp only [if_true, fastOffset, Nat.zero_add, (widths_get p.info i t hi).1]

/-! ### C25 -/

/-- C25: what read_trace_data(names) leaves under the name of trace `i`, for a file with distinct trace names: the samples
stored at the position of trace `i` if it was requested (or if it is the axis, read for the first time), and otherwise what
was there before. Which other traces are requested does not matter. -/
theorem C25_read_exact (val : NumType → Word → V) (p : Plot) (steps : Option Nat) (s s' : St) (names : List Str)
    (hnd : (p.info.map Info.name).Nodup) (h : readTraceData val p steps s names = .ok s')
    (i : Nat) (t : Info) (hi : p.info[i]? = some t) :
    if i = 0 ∧ p.hasAxis ∧ s.axis.isNone then
      ∃ o, s'.reads.lookup t.name = some ⟨true, t.num, traceSamples p i, o⟩ ∧ s'.axis = some ⟨true, t.num, traceSamples p i, o⟩
    else s'.reads.lookup t.name =
      if t.name ∈ names then some ⟨false, t.num, traceSamples p i, none⟩ else s.reads.lookup t.name := by
  unfold readTraceData at h
  by_cases hf : p.fast = true
  · rw [if_pos hf] at h
    cases hinfo : p.info with
    | nil => rw [hinfo] at hi; exact absurd hi (by simp)
    | cons i0 is =>
      rw [hinfo] at h hnd
      simp only at h
      rw [List.map_cons, List.nodup_cons] at hnd
      by_cases hax : p.hasAxis ∧ s.axis.isNone
      · rw [if_pos hax] at h
        cases hr : readBytes p.data 0 (p.nPoints * i0.num.width) with
        | error e => rw [hr] at h; exact absurd h (by simp)
        | ok raw =>
          rw [hr] at h
          simp only at h
          cases hm : mkAxis val steps i0 (fromBuffer i0.num.width p.nPoints raw) with
          | error e => rw [hm] at h; exact absurd h (by simp)
          | ok ax =>
            rw [hm] at h
            simp only at h
            obtain ⟨ha1, ha2, ha3⟩ := mkAxis_ok _ _ _ _ _ hm
            obtain ⟨h1, h2, h3⟩ := fastLoop_spec p names is _ _ _ hnd.2 h
            cases i with
            | zero =>
              rw [if_pos ⟨rfl, hax⟩]
              rw [hinfo] at hi
              simp only [List.getElem?_cons_zero, Option.some.injEq] at hi
              subst hi
              have hdata : ax.data = traceSamples p 0 := by
                rw [ha3, ← fastWords_traceSamples p hf 0 i0 (by rw [hinfo]; rfl), readBytes_inv _ _ _ _ hr,
                  show p.nPoints * i0.num.width = i0.num.width * p.nPoints by ring, fromBuffer_eq]
                simp [fastWords]
              refine ⟨ax.offsets, ?_, ?_⟩
              · rw [h3 _ hnd.1, lookup_put, if_pos rfl, ← hdata, ← ha1, ← ha2]
              · rw [h1, ← hdata, ← ha1, ← ha2]
            | succ j =>
              rw [if_neg (by omega)]
              have hi' := hi
              rw [hinfo, List.getElem?_cons_succ] at hi'
              have hne : t.name ≠ i0.name := by
                intro he
                exact hnd.1 (he ▸ List.mem_map_of_mem (List.mem_of_getElem? hi'))
              rw [h2 j t hi', lookup_put, if_neg hne, ← fastWords_traceSamples p hf (j + 1) t hi]
              congr 3
              unfold fastWords
              apply List.map_congr_left
              intro m _
              rw [hinfo, List.map_cons, List.take_succ_cons, List.sum_cons]
              congr 2
              ring
      · rw [if_neg hax] at h
        rw [if_neg (by tauto)]
        obtain ⟨_, h2, _⟩ := fastLoop_spec p names (i0 :: is) _ _ _ (by rw [List.map_cons, List.nodup_cons]; exact hnd) h
        rw [h2 i t (by rw [← hinfo]; exact hi), ← hinfo, fastWords_traceSamples p hf i t hi]
  · rw [if_neg hf] at h
    have hf' : p.fast = false := by simpa using hf
    simp only at h
    cases hr : readBytes p.data 0 (p.nPoints * recordSize p.info) with
    | error e => rw [hr] at h; exact absurd h (by simp)
    | ok raw =>
      rw [hr] at h
      simp only at h
      split_ifs at h with hnd'
      have hraw := readBytes_inv _ _ _ _ hr
      have hcol := fun j (t : Info) (hj : p.info[j]? = some t) =>
        column_spec p hf' p.hasAxis s.axis.isSome names hnd j t hj
      rw [← hraw] at hcol
      generalize column (dtypes p.hasAxis s.axis.isSome names true p.info) p.nPoints raw = col at h hcol
      cases hinfo : p.info with
      | nil => rw [hinfo] at hi; exact absurd hi (by simp)
      | cons i0 is =>
        have hnd2 := hnd
        rw [hinfo, List.map_cons, List.nodup_cons] at hnd2
        rw [hinfo] at h
        simp only [normalLoop, true_and] at h
        by_cases hax : p.hasAxis ∧ s.axis.isNone
        · rw [if_pos hax] at h
          cases hm : mkAxis val steps i0 (col i0.name) with
          | error e => rw [hm] at h; exact absurd h (by simp)
          | ok ax =>
            rw [hm] at h
            simp only at h
            obtain ⟨ha1, ha2, ha3⟩ := mkAxis_ok _ _ _ _ _ hm
            obtain ⟨s2, e0, e1, e2, e3⟩ := normalLoop_false val p steps names col is ⟨some ax, put s.reads i0.name ax⟩ hnd2.2
            rw [e0] at h
            injection h with h; subst h
            cases i with
            | zero =>
              rw [if_pos ⟨rfl, hax⟩]
              have hi' := hi
              rw [hinfo] at hi'
              simp only [List.getElem?_cons_zero, Option.some.injEq] at hi'
              subst hi'
              have hdata : ax.data = traceSamples p 0 := by rw [ha3, hcol 0 i0 hi]
              refine ⟨ax.offsets, ?_, ?_⟩
              · rw [e3 _ hnd2.1, lookup_put, if_pos rfl, ← hdata, ← ha1, ← ha2]
              · rw [e1, ← hdata, ← ha1, ← ha2]
            | succ j =>
              rw [if_neg (by omega)]
              have hi' := hi
              rw [hinfo, List.getElem?_cons_succ] at hi'
              have hne : t.name ≠ i0.name := by
                intro he
                exact hnd2.1 (he ▸ List.mem_map_of_mem (List.mem_of_getElem? hi'))
              rw [e2 j t hi', lookup_put, if_neg hne, hcol (j + 1) t hi]
        · rw [if_neg hax] at h
          rw [if_neg (by tauto)]
          by_cases hmem : i0.name ∈ names
          · rw [if_pos hmem] at h
            obtain ⟨s2, e0, e1, e2, e3⟩ := normalLoop_false val p steps names col is
              { s with reads := put s.reads i0.name ⟨false, i0.num, col i0.name, none⟩ } hnd2.2
            rw [e0] at h
            injection h with h; subst h
            cases i with
            | zero =>
              have hi' := hi
              rw [hinfo] at hi'
              simp only [List.getElem?_cons_zero, Option.some.injEq] at hi'
              subst hi'
              rw [e3 _ hnd2.1, lookup_put, if_pos rfl, if_pos hmem, hcol 0 i0 hi]
            | succ j =>
              have hi' := hi
              rw [hinfo, List.getElem?_cons_succ] at hi'
              have hne : t.name ≠ i0.name := by
                intro he
                exact hnd2.1 (he ▸ List.mem_map_of_mem (List.mem_of_getElem? hi'))
              rw [e2 j t hi', lookup_put, if_neg hne, hcol (j + 1) t hi]
          · rw [if_neg hmem] at h
            obtain ⟨s2, e0, e1, e2, e3⟩ := normalLoop_false val p steps names col is s hnd2.2
            rw [e0] at h
            injection h with h; subst h
            cases i with
            | zero =>
              have hi' := hi
              rw [hinfo] at hi'
              simp only [List.getElem?_cons_zero, Option.some.injEq] at hi'
              subst hi'
              rw [e3 _ hnd2.1, if_neg hmem]
            | succ j =>
              have hi' := hi
              rw [hinfo, List.getElem?_cons_succ] at hi'
              rw [e2 j t hi', hcol (j + 1) t hi]

/-- C25: reading succeeds, whatever the requested names, when the data section is complete (and, for stepped data, the
axis has been read before or there is no step information). -/
theorem C25_read_succeeds (val : NumType → Word → V) (p : Plot) (steps : Option Nat) (s : St) (names : List Str)
    (hnd : (p.info.map Info.name).Nodup) (hlen : p.nPoints * recordSize p.info ≤ p.data.length)
    (hsteps : steps = none ∨ s.axis.isSome ∨ p.hasAxis = false) :
    ∃ s', readTraceData val p steps s names = .ok s' := by
  have hmk : p.hasAxis ∧ s.axis.isNone → ∀ i w, ∃ ax, mkAxis val steps i w = .ok ax := by
    rintro ⟨h1, h2⟩ i w
    rcases hsteps with h | h | h
    · subst h; exact ⟨_, rfl⟩
    · rw [Option.isNone_iff_eq_none] at h2; rw [h2] at h; exact absurd h (by simp)
    · rw [h] at h1; exact absurd h1 (by simp)
  unfold readTraceData
  by_cases hf : p.fast = true
  · rw [if_pos hf]
    cases hinfo : p.info with
    | nil => exact ⟨s, rfl⟩
    | cons i0 is =>
      have hr : p.nPoints * recordSize p.info = p.nPoints * i0.num.width + p.nPoints * recordSize is := by
        rw [hinfo]; simp only [recordSize, List.map_cons, List.sum_cons]; ring
      simp only
      by_cases hax : p.hasAxis ∧ s.axis.isNone
      · rw [if_pos hax, readBytes_ok _ _ _ (by omega)]
        simp only
        obtain ⟨ax, hax'⟩ := hmk hax i0 (fromBuffer i0.num.width p.nPoints ((p.data.drop 0).take (p.nPoints * i0.num.width)))
        rw [hax']
        exact fastLoop_ok p names is _ _ (by omega)
      · rw [if_neg hax]
        exact fastLoop_ok p names (i0 :: is) 0 s (by rw [← hinfo]; omega)
  · rw [if_neg hf]
    simp only
    rw [readBytes_ok _ _ _ (by omega)]
    simp only
    rw [if_pos (by rw [dtypes_names]; exact hnd)]
    generalize column (dtypes p.hasAxis s.axis.isSome names true p.info) p.nPoints
      ((p.data.drop 0).take (p.nPoints * recordSize p.info)) = col
    cases hinfo : p.info with
    | nil => exact ⟨s, rfl⟩
    | cons i0 is =>
      rw [hinfo, List.map_cons, List.nodup_cons] at hnd
      simp only [normalLoop, true_and]
      by_cases hax : p.hasAxis ∧ s.axis.isNone
      · rw [if_pos hax]
        obtain ⟨ax, hax'⟩ := hmk hax i0 (col i0.name)
        rw [hax']
        obtain ⟨s2, e0, _⟩ := normalLoop_false val p steps names col is ⟨some ax, put s.reads i0.name ax⟩ hnd.2
        exact ⟨s2, e0⟩
      · rw [if_neg hax]
        split_ifs
        · obtain ⟨s2, e0, _⟩ := normalLoop_false val p steps names col is
            { s with reads := put s.reads i0.name ⟨false, i0.num, col i0.name, none⟩ } hnd.2
          exact ⟨s2, e0⟩
        · obtain ⟨s2, e0, _⟩ := normalLoop_false val p steps names col is s hnd.2
          exact ⟨s2, e0⟩

/-- The states of a plot after any history of (successful) reads. -/
inductive Reached (val : NumType → Word → V) (p : Plot) (steps : Option Nat) : St → Prop where
  | init : Reached val p steps St.init
  | read (s s' : St) (names : List Str) : Reached val p steps s → readTraceData val p steps s names = .ok s' → Reached val p steps s'

/-- C25: after any history of reads, whatever is stored under a trace name is that trace's data. -/
theorem C25_history (val : NumType → Word → V) (p : Plot) (steps : Option Nat) (s : St)
    (hnd : (p.info.map Info.name).Nodup) (hs : Reached val p steps s)
    (i : Nat) (t : Info) (hi : p.info[i]? = some t) (l : Loaded) (hl : s.reads.lookup t.name = some l) :
    l.data = traceSamples p i ∧ l.num = t.num := by
  induction hs with
  | init => exact absurd hl (by simp [St.init])
  | read s0 s1 names hr h ih =>
    have := C25_read_exact val p steps s0 s1 names hnd h i t hi
    split_ifs at this with h1 h2
    · obtain ⟨o, ho, _⟩ := this
      rw [hl] at ho; injection ho with ho; rw [ho]; exact ⟨rfl, rfl⟩
    · rw [hl] at this; injection this with this; rw [this]; exact ⟨rfl, rfl⟩
    · rw [hl] at this; exact ih this.symm

theorem put_keys {X : Type} (d : List (Str × X)) (k : Str) (v : X) : ∀ kv ∈ put d k v, kv.1 = k ∨ ∃ v', (kv.1, v') ∈ d := by
  induction d with
  | nil => intro kv h; simp only [put, List.mem_singleton] at h; left; rw [h]
  | cons a d ih =>
    obtain ⟨ka, va⟩ := a
    intro kv h
    simp only [put] at h
    split_ifs at h with h1
    · rcases List.mem_cons.mp h with rfl | h
      · left; exact h1
      · right; exact ⟨kv.2, by simp [h]⟩
    · rcases List.mem_cons.mp h with rfl | h
      · right; exact ⟨va, by simp⟩
      · rcases ih kv h with h | ⟨v', h⟩
        · left; exact h
        · right; exact ⟨v', by simp [h]⟩

theorem fastLoop_keys (p : Plot) (names : List Str) : ∀ (is : List Info) (prev : Nat) (s s' : St),
    fastLoop p names is prev s = .ok s' → ∀ kv ∈ s'.reads, kv.1 ∈ is.map Info.name ∨ ∃ v', (kv.1, v') ∈ s.reads := by
  intro is
  induction is with
  | nil =>
    intro prev s s' h kv hk
    simp only [fastLoop] at h; injection h with h; subst h
    right; exact ⟨kv.2, hk⟩
  | cons i is ih =>
    intro prev s s' h kv hk
    simp only [fastLoop] at h
    split_ifs at h with hm
    · cases hr : readBytes p.data prev (i.num.width * p.nPoints) with
      | error e => rw [hr] at h; exact absurd h (by simp)
      | ok raw =>
        rw [hr] at h
        rcases ih _ _ _ h kv hk with h' | ⟨v', h'⟩
        · left; simp only [List.map_cons, List.mem_cons]; right; exact h'
        · rcases put_keys _ _ _ _ h' with h2 | h2
          · left; simp only [List.map_cons, List.mem_cons]; left; exact h2
          · right; exact h2
    · rcases ih _ _ _ h kv hk with h' | h'
      · left; simp only [List.map_cons, List.mem_cons]; right; exact h'
      · right; exact h'

theorem normalLoop_keys (val : NumType → Word → V) (p : Plot) (steps : Option Nat) (names : List Str) (col : Str → List Word) :
    ∀ (is : List Info) (first : Bool) (s s' : St), normalLoop val p steps names col first is s = .ok s' →
    ∀ kv ∈ s'.reads, kv.1 ∈ is.map Info.name ∨ ∃ v', (kv.1, v') ∈ s.reads := by
  intro is
  induction is with
  | nil =>
    intro first s s' h kv hk
    simp only [normalLoop] at h; injection h with h; subst h
    right; exact ⟨kv.2, hk⟩
  | cons i is ih =>
    intro first s s' h kv hk
    simp only [normalLoop] at h
    split_ifs at h with hm hn
    · cases hr : mkAxis val steps i (col i.name) with
      | error e => rw [hr] at h; exact absurd h (by simp)
      | ok raw =>
        rw [hr] at h
        rcases ih _ _ _ h kv hk with h' | ⟨v', h'⟩
        · left; simp only [List.map_cons, List.mem_cons]; right; exact h'
        · rcases put_keys _ _ _ _ h' with h2 | h2
          · left; simp only [List.map_cons, List.mem_cons]; left; exact h2
          · right; exact h2
    · rcases ih _ _ _ h kv hk with h' | ⟨v', h'⟩
      · left; simp only [List.map_cons, List.mem_cons]; right; exact h'
      · rcases put_keys _ _ _ _ h' with h2 | h2
        · left; simp only [List.map_cons, List.mem_cons]; left; exact h2
        · right; exact h2
    · rcases ih _ _ _ h kv hk with h' | h'
      · left; simp only [List.map_cons, List.mem_cons]; right; exact h'
      · right; exact h'

theorem reached_keys (val : NumType → Word → V) (p : Plot) (steps : Option Nat) (s : St) (hs : Reached val p steps s) :
    ∀ kv ∈ s.reads, kv.1 ∈ p.info.map Info.name := by
  induction hs with
  | init => intro kv h; exact absurd h (by simp [St.init])
  | read s0 s1 names hr h ih =>
    intro kv hk
    have key : kv.1 ∈ p.info.map Info.name ∨ ∃ v', (kv.1, v') ∈ s0.reads := by
      unfold readTraceData at h
      by_cases hf : p.fast = true
      · rw [if_pos hf] at h
        cases hinfo : p.info with
        | nil => rw [hinfo] at h; injection h with h; subst h; right; exact ⟨kv.2, hk⟩
        | cons i0 is =>
          rw [hinfo] at h
          simp only at h
          by_cases hax : p.hasAxis ∧ s0.axis.isNone
          · rw [if_pos hax] at h
            cases hr : readBytes p.data 0 (p.nPoints * i0.num.width) with
            | error e => rw [hr] at h; exact absurd h (by simp)
            | ok raw =>
              rw [hr] at h
              simp only at h
              cases hm : mkAxis val steps i0 (fromBuffer i0.num.width p.nPoints raw) with
              | error e => rw [hm] at h; exact absurd h (by simp)
              | ok ax =>
                rw [hm] at h
                rcases fastLoop_keys _ _ _ _ _ _ h kv hk with h' | ⟨v', h'⟩
                · left; simp only [List.map_cons, List.mem_cons]; right; exact h'
                · rcases put_keys _ _ _ _ h' with h2 | h2
                  · left; simp only [List.map_cons, List.mem_cons]; left; exact h2
                  · right; exact h2
          · rw [if_neg hax] at h
            exact fastLoop_keys _ _ _ _ _ _ h kv hk
      · rw [if_neg hf] at h
        simp only at h
        cases hr : readBytes p.data 0 (p.nPoints * recordSize p.info) with
        | error e => rw [hr] at h; exact absurd h (by simp)
        | ok raw =>
          rw [hr] at h
          simp only at h
          split_ifs at h
          exact normalLoop_keys _ _ _ _ _ _ _ _ _ h kv hk
    rcases key with h' | ⟨v', h'⟩
    · exact h'
    · exact ih (kv.1, v') h'

theorem find_by_key {X Y : Type} [DecidableEq Y] (l : List X) (f : X → Y) (hnd : (l.map f).Nodup) (i : Nat) (x : X)
    (hi : l[i]? = some x) : l.find? (fun y => decide (f y = f x)) = some x := by
  induction l generalizing i with
  | nil => exact absurd hi (by simp)
  | cons a l ih =>
    rw [List.map_cons, List.nodup_cons] at hnd
    cases i with
    | zero =>
      simp only [List.getElem?_cons_zero, Option.some.injEq] at hi
      subst hi
      simp
    | succ i =>
      rw [List.getElem?_cons_succ] at hi
      have hne : f a ≠ f x := by
        intro he; exact hnd.1 (he ▸ List.mem_map_of_mem (List.mem_of_getElem? hi))
      rw [List.find?_cons, show decide (f a = f x) = false by simp [hne]]
      exact ih hnd.2 i hi

/-- C25: get_trace by name after any history gives exactly the data of that trace, whether it was loaded before or is read
from the file now. Trace names must differ by more than their case (get_trace ignores case). -/
theorem C25_get_trace (val : NumType → Word → V) (p : Plot) (s : St)
    (hnd : (p.info.map (fun t => Model.PyStr.lower t.name)).Nodup) (hlen : p.nPoints * recordSize p.info ≤ p.data.length)
    (hs : Reached val p none s) (i : Nat) (t : Info) (hi : p.info[i]? = some t) :
    ∃ l s', getTrace val p none s t.name = .ok (l, s') ∧ l.data = traceSamples p i ∧ l.num = t.num ∧
      Reached val p none s' := by
  have hnd1 : (p.info.map Info.name).Nodup := by
    have : p.info.map (fun t => Model.PyStr.lower t.name) = (p.info.map Info.name).map Model.PyStr.lower := by simp
    rw [this] at hnd
    exact List.Nodup.of_map _ hnd
  unfold getTrace
  cases hl : s.reads.lookup t.name with
  | some l =>
    have := C25_history val p none s hnd1 hs i t hi l hl
    exact ⟨l, s, rfl, this.1, this.2, hs⟩
  | none =>
    simp only
    have hfind : s.reads.find? (fun kv => decide (Model.PyStr.lower kv.1 = Model.PyStr.lower t.name)) = none := by
      rw [List.find?_eq_none]
      intro kv hk
      have hmem := reached_keys val p none s hs kv hk
      simp only [decide_eq_true_eq]
      intro hlow
      obtain ⟨t', ht', hname⟩ := List.mem_map.mp hmem
      obtain ⟨j, hj⟩ := List.mem_iff_getElem?.mp ht'
      have e1 := find_by_key p.info (fun t => Model.PyStr.lower t.name) hnd j t' hj
      have e2 := find_by_key p.info (fun t => Model.PyStr.lower t.name) hnd i t hi
      simp only [hname, hlow] at e1
      rw [e1] at e2
      injection e2 with e2
      subst e2
      have : s.reads.lookup kv.1 ≠ none := by
        rw [ne_eq, List.lookup_eq_none_iff]
        push Not
        exact ⟨kv, hk, by simp⟩
      rw [← hname] at this
      exact this hl
    rw [hfind]
    simp only
    rw [find_by_key p.info Info.name hnd1 i t hi]
    simp only
    obtain ⟨s', hs'⟩ := C25_read_succeeds val p none s [t.name] hnd1 hlen (Or.inl rfl)
    rw [hs']
    simp only
    have hex := C25_read_exact val p none s s' [t.name] hnd1 hs' i t hi
    have hreach : Reached val p none s' := Reached.read s s' [t.name] hs hs'
    simp only [List.mem_singleton, if_true] at hex
    split_ifs at hex with h1
    · obtain ⟨o, ho, _⟩ := hex
      rw [ho]
      exact ⟨_, s', rfl, rfl, rfl, hreach⟩
    · rw [hex]
      exact ⟨_, s', rfl, rfl, rfl, hreach⟩

/-- C25: get_trace ignores the case of the name it is given: any spelling gives the samples of the same trace. -/
theorem C25_get_trace_any_case (val : NumType → Word → V) (p : Plot) (s : St)
    (hnd : (p.info.map (fun t => Model.PyStr.lower t.name)).Nodup) (hlen : p.nPoints * recordSize p.info ≤ p.data.length)
    (hs : Reached val p none s) (i : Nat) (t : Info) (hi : p.info[i]? = some t) (name : Str)
    (hname : Model.PyStr.lower name = Model.PyStr.lower t.name) :
    ∃ l s', getTrace val p none s name = .ok (l, s') ∧ l.data = traceSamples p i ∧ l.num = t.num ∧
      Reached val p none s' := by
  by_cases heq : name = t.name
  · rw [heq]; exact C25_get_trace val p s hnd hlen hs i t hi
  have hnd1 : (p.info.map Info.name).Nodup := by
    have : p.info.map (fun t => Model.PyStr.lower t.name) = (p.info.map Info.name).map Model.PyStr.lower := by simp
    rw [this] at hnd
    exact List.Nodup.of_map _ hnd
  have huniq : ∀ t' ∈ p.info, Model.PyStr.lower t'.name = Model.PyStr.lower t.name → t' = t := by
    intro t' ht' hl
    obtain ⟨j, hj⟩ := List.mem_iff_getElem?.mp ht'
    have e1 := find_by_key p.info (fun t => Model.PyStr.lower t.name) hnd j t' hj
    have e2 := find_by_key p.info (fun t => Model.PyStr.lower t.name) hnd i t hi
    simp only [hl] at e1
    rw [e1] at e2
    injection e2
  have hmem : t ∈ p.info := List.mem_of_getElem? hi
  have hno : ∀ t' ∈ p.info, t'.name ≠ name := by
    intro t' ht' h
    have := huniq t' ht' (by rw [h, hname])
    rw [this] at h
    exact heq h.symm
  unfold getTrace
  have hl : s.reads.lookup name = none := by
    rw [List.lookup_eq_none_iff]
    intro kv hk
    obtain ⟨t', ht', hn⟩ := List.mem_map.mp (reached_keys val p none s hs kv hk)
    have := hno t' ht'
    rw [hn] at this
    simp [Ne.symm this]
  rw [hl]
  simp only
  cases hf : s.reads.find? (fun kv => decide (Model.PyStr.lower kv.1 = Model.PyStr.lower name)) with
  | some kv =>
    simp only
    have hk := List.mem_of_find?_eq_some hf
    have hl2 := List.find?_some hf
    simp only [decide_eq_true_eq] at hl2
    obtain ⟨t', ht', hn⟩ := List.mem_map.mp (reached_keys val p none s hs kv hk)
    have htt := huniq t' ht' (by rw [hn, hl2, hname])
    subst htt
    have hlk : s.reads.lookup t'.name = some kv.2 := by
      rw [List.lookup_eq_some_iff]
      have hfst : ∃ l₁ l₂, s.reads = l₁ ++ (kv.1, kv.2) :: l₂ ∧ ∀ q ∈ l₁, ¬ Model.PyStr.lower q.1 = Model.PyStr.lower name := by
        rw [List.find?_eq_some_iff_append] at hf
        obtain ⟨_, as, bs, h1, h2⟩ := hf
        exact ⟨as, bs, h1, by simpa using h2⟩
      obtain ⟨l₁, l₂, h1, h2⟩ := hfst
      refine ⟨l₁, l₂, by rw [h1, hn], ?_⟩
      intro q hq
      have := h2 q hq
      simp only [bne_iff_ne, ne_eq, beq_iff_eq]
      intro h3
      apply this
      rw [← h3, hname]
    have := C25_history val p none s hnd1 hs i t' hi kv.2 hlk
    exact ⟨kv.2, s, rfl, this.1, this.2, hs⟩
  | none =>
    simp only
    have h1 : p.info.find? (fun i => decide (i.name = name)) = none := by
      rw [List.find?_eq_none]; intro t' ht'; simpa using hno t' ht'
    rw [h1]
    simp only
    have h2 := find_by_key p.info (fun t => Model.PyStr.lower t.name) hnd i t hi
    rw [hname, h2]
    simp only
    obtain ⟨s', hs'⟩ := C25_read_succeeds val p none s [t.name] hnd1 hlen (Or.inl rfl)
    rw [hs']
    simp only
    have hex := C25_read_exact val p none s s' [t.name] hnd1 hs' i t hi
    have hreach : Reached val p none s' := Reached.read s s' [t.name] hs hs'
    simp only [List.mem_singleton, if_true] at hex
    split_ifs at hex with h3
    · obtain ⟨o, ho, _⟩ := hex
      rw [ho]
      exact ⟨_, s', rfl, rfl, rfl, hreach⟩
    · rw [hex]
      exact ⟨_, s', rfl, rfl, rfl, hreach⟩

/-- C25: a name no trace has, in any spelling, is refused with an IndexError. -/
theorem C25_unknown_name (val : NumType → Word → V) (p : Plot) (s : St) (hs : Reached val p none s) (name : Str)
    (h : ∀ t ∈ p.info, Model.PyStr.lower t.name ≠ Model.PyStr.lower name) : getTrace val p none s name = .error .index := by
  have hk : ∀ kv ∈ s.reads, Model.PyStr.lower kv.1 ≠ Model.PyStr.lower name := by
    intro kv hk
    obtain ⟨t', ht', hn⟩ := List.mem_map.mp (reached_keys val p none s hs kv hk)
    rw [← hn]; exact h t' ht'
  unfold getTrace
  have h1 : s.reads.lookup name = none := by
    rw [List.lookup_eq_none_iff]
    intro kv hkv
    have := hk kv hkv
    simp only [beq_iff_eq, bne_iff_ne, ne_eq]
    intro he; apply this; rw [← he]
  have h2 : s.reads.find? (fun kv => decide (Model.PyStr.lower kv.1 = Model.PyStr.lower name)) = none := by
    rw [List.find?_eq_none]; intro kv hkv; simpa using hk kv hkv
  have h3 : p.info.find? (fun i => decide (i.name = name)) = none := by
    rw [List.find?_eq_none]; intro t ht; have := h t ht; simp only [decide_eq_true_eq]; intro he; exact this (by rw [he])
  have h4 : p.info.find? (fun i => decide (Model.PyStr.lower i.name = Model.PyStr.lower name)) = none := by
    rw [List.find?_eq_none]; intro t ht; simpa using h t ht
  rw [h1, h2]
  simp only
  rw [h3, h4]

/-- A file with two points: a time axis (8 bytes) and a voltage (4 bytes), fast access. -/
def demo (fast : Bool) : Plot :=
  ⟨2, 2, "ltspice".toList, true, fast, false, [⟨"time".toList, .double, "time".toList⟩, ⟨"V(a)".toList, .real, "voltage".toList⟩],
    (List.range 24).map UInt8.ofNat⟩

def rawVal : NumType → Word → Word := fun _ w => w

example : traceSamples (demo true) 1 = [[16, 17, 18, 19], [20, 21, 22, 23]] ∧
    traceSamples (demo false) 1 = [[8, 9, 10, 11], [20, 21, 22, 23]] := by decide +kernel

example : ∃ l s', getTrace rawVal (demo true) none St.init "v(A)".toList = .ok (l, s') ∧ l.data = [[16, 17, 18, 19], [20, 21, 22, 23]] := by
  refine ⟨_, _, rfl, ?_⟩
  decide +kernel

/-- C25 limit: reading all traces twice (which `export()` does) replaces the axis by a plain trace, after which get_axis
fails although it worked before. -/
theorem C25_axis_lost :
    ∃ s1 s2 : St, readTraceData rawVal (demo true) none St.init ["time".toList, "V(a)".toList] = .ok s1 ∧
      (∃ r, getAxis rawVal (demo true) none s1 = .ok r) ∧
      readTraceData rawVal (demo true) none s1 ["time".toList, "V(a)".toList] = .ok s2 ∧
      getAxis rawVal (demo true) none s2 = .error .assertion := by
  refine ⟨_, _, rfl, ?_, rfl, ?_⟩
  · exact ⟨_, rfl⟩
  · decide +kernel

end Props.RawRead
