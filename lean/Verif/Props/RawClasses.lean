import Verif.Model.RawClasses
import Verif.Spec.Interp
import Mathlib.Data.List.Basic
import Mathlib.Data.List.Range
import Mathlib.Data.Rat.Floor
import Mathlib.Tactic.Linarith
import Mathlib.Tactic.FieldSimp
import Mathlib.Tactic.Ring
import Mathlib.Tactic.SplitIfs
import Mathlib.Tactic.Push
import Mathlib.Order.Monotone.Basic
/-
C23, C26, C27: steps, lengths and interpolation of waveforms read from RAW files.
-/
namespace Props.RawClasses
open Model.RawClasses
open Spec.Interp (OnPolyline)

variable {α β : Type} [DecidableEq α]

/-- Where the steps of a stepped axis begin: the indices at which the axis takes its initial value again. -/
def starts (data : List α) : List Nat := (List.range data.length).filter (fun i => data[i]? = data[0]?)

/-! ### Helper lemmas -/

/-- Positions (counted from `i`) at which `d0` occurs. -/
def occ (d0 : α) : List α → Nat → List Nat
  | [], _ => []
  | x :: xs, i => if x = d0 then i :: occ d0 xs (i + 1) else occ d0 xs (i + 1)

theorem occ_eq (d0 : α) : ∀ (xs : List α) (i : Nat),
    occ d0 xs i = ((List.range' i xs.length).filter (fun j => xs[j - i]? = some d0)) := by
  intro xs
  induction xs with
  | nil => intro i; rfl
  | cons x xs ih =>
    intro i
    have hcongr : (List.range' (i + 1) xs.length).filter (fun j => decide ((x :: xs)[j - i]? = some d0))
        = (List.range' (i + 1) xs.length).filter (fun j => decide (xs[j - (i + 1)]? = some d0)) := by
      apply List.filter_congr
      intro j hj
      rw [List.mem_range'_1] at hj
      have : j - i = (j - (i + 1)) + 1 := by omega
      rw [this, List.getElem?_cons_succ]
    rw [List.length_cons, List.range'_succ, List.filter_cons, hcongr, ← ih (i + 1), occ]
    by_cases hx : x = d0 <;> simp [hx]

theorem starts_cons (d0 : α) (rest : List α) : starts (d0 :: rest) = 0 :: occ d0 rest 1 := by
  unfold starts
  rw [List.range_eq_range', List.length_cons, List.range'_succ, List.filter_cons, if_pos (by simp), occ_eq]
  congr 1
  apply List.filter_congr
  intro j hj
  rw [List.mem_range'_1] at hj
  obtain ⟨k, rfl⟩ : ∃ k, j = k + 1 := ⟨j - 1, by omega⟩
  simp

theorem scan_eq (n : Nat) (d0 : α) : ∀ (xs : List α) (i : Nat) (offs : List Nat), offs.length ≤ n →
    scan n d0 xs i offs =
      if n < (offs ++ occ d0 xs i).length then .error .index
      else if (offs ++ occ d0 xs i).length < n then .error .spiceRead
      else .ok (offs ++ occ d0 xs i) := by
  intro xs
  induction xs with
  | nil =>
    intro i offs h
    simp only [scan, occ, List.append_nil]
    split_ifs <;> first | rfl | omega
  | cons x xs ih =>
    intro i offs h
    simp only [scan, occ]
    by_cases hx : x = d0
    · simp only [if_pos hx]
      by_cases hl : offs.length < n
      · rw [if_pos hl, ih _ _ (by simp; omega)]
        simp only [List.append_assoc, List.singleton_append]
      · rw [if_neg hl, if_pos (by simp; omega)]
    · simp only [if_neg hx]
      exact ih _ _ h

theorem starts_pos (data : List α) (h : data ≠ []) : 0 < (starts data).length := by
  cases data with
  | nil => exact absurd rfl h
  | cons d0 rest => rw [starts_cons]; simp

theorem setSteps_ok {data : List α} {n : Nat} {offs : List Nat} (h : setSteps data n = .ok offs) :
    offs.length = n ∧ 0 < n ∧ ((data = [] ∧ offs = [0]) ∨ (data ≠ [] ∧ offs = starts data)) := by
  unfold setSteps at h
  by_cases h0 : n = 0
  · rw [if_pos h0] at h; exact absurd h (by simp)
  rw [if_neg h0] at h
  cases data with
  | nil =>
    simp only at h
    split_ifs at h with h1
    injection h with h; subst h
    exact ⟨by simp only [List.length_singleton]; omega, by omega, Or.inl ⟨rfl, rfl⟩⟩
  | cons d0 rest =>
    simp only at h
    rw [scan_eq n d0 rest 1 [0] (by simp; omega)] at h
    split_ifs at h with h1 h2
    injection h with h
    have hs : offs = starts (d0 :: rest) := by rw [starts_cons, ← h]; rfl
    refine ⟨?_, by omega, Or.inr ⟨by simp, hs⟩⟩
    rw [← h]; omega

/-- The facts about offsets that slicing needs. -/
structure Good (offs : List Nat) (len : Nat) : Prop where
  zero : offs[0]? = some 0
  mono : offs.Pairwise (· < ·)
  bound : ∀ o ∈ offs, o ≤ len

theorem starts_good (data : List α) (h : data ≠ []) : Good (starts data) data.length := by
  refine ⟨?_, ?_, ?_⟩
  · cases data with
    | nil => exact absurd rfl h
    | cons d0 rest => rw [starts_cons]; rfl
  · exact List.Pairwise.filter _ List.pairwise_lt_range
  · intro o ho
    have := (List.mem_filter.mp ho).1
    rw [List.mem_range] at this
    omega

theorem setSteps_good {data : List α} {n : Nat} {offs : List Nat} (h : setSteps data n = .ok offs) :
    Good offs data.length := by
  obtain ⟨_, _, h3 | h3⟩ := setSteps_ok h
  · rw [h3.2]; exact ⟨rfl, by simp, by simp⟩
  · rw [h3.2]; exact starts_good data h3.1

omit [DecidableEq α] in
theorem off_le (a : Axis α) (offs : List Nat) (ho : a.offsets = some offs) (g : Good offs a.data.length) (k : Nat) :
    a.stepOffset k ≤ a.data.length := by
  cases hk : offs[k]? with
  | none => simp only [Axis.stepOffset, ho, hk]; exact Nat.le_refl _
  | some o => simp only [Axis.stepOffset, ho, hk]; exact g.bound o (List.mem_of_getElem? hk)

omit [DecidableEq α] in
theorem off_mono (a : Axis α) (offs : List Nat) (ho : a.offsets = some offs) (g : Good offs a.data.length) (k : Nat) :
    a.stepOffset k ≤ a.stepOffset (k + 1) := by
  cases hk1 : offs[k + 1]? with
  | none =>
    have : a.stepOffset (k + 1) = a.data.length := by simp only [Axis.stepOffset, ho, hk1]
    rw [this]; exact off_le a offs ho g k
  | some o1 =>
    obtain ⟨hl, he⟩ := List.getElem?_eq_some_iff.mp hk1
    have hk : offs[k]? = some offs[k] := List.getElem?_eq_getElem (by omega)
    simp only [Axis.stepOffset, ho, hk, hk1]
    have := List.pairwise_iff_getElem.mp g.mono k (k + 1) (by omega) hl (by omega)
    omega

omit [DecidableEq α] in
theorem wave_slice (data : List β) (a : Axis α) (offs : List Nat) (ho : a.offsets = some offs)
    (g : Good offs a.data.length) (step : Nat) :
    (if step = 0 then data.take (a.stepOffset 1) else slice data (a.stepOffset step) (a.stepOffset (step + 1)))
      = slice data (a.stepOffset step) (a.stepOffset (step + 1)) := by
  by_cases h : step = 0
  · subst h
    have : a.stepOffset 0 = 0 := by simp only [Axis.stepOffset, ho, g.zero]
    simp [this, slice]
  · rw [if_neg h]

omit [DecidableEq α] in
theorem slices_concat (data : List β) (a : Axis α) (offs : List Nat) (ho : a.offsets = some offs)
    (g : Good offs a.data.length) : ∀ k : Nat,
    (List.range k).flatMap (fun s => slice data (a.stepOffset s) (a.stepOffset (s + 1))) = data.take (a.stepOffset k) := by
  intro k
  induction k with
  | zero =>
    have : a.stepOffset 0 = 0 := by simp only [Axis.stepOffset, ho, g.zero]
    simp [this]
  | succ k ih =>
    rw [List.range_succ, List.flatMap_append, ih]
    simp only [List.flatMap_cons, List.flatMap_nil, List.append_nil]
    have hm := off_mono a offs ho g k
    unfold slice
    have : data.take (a.stepOffset k) = (data.take (a.stepOffset (k + 1))).take (a.stepOffset k) := by
      rw [List.take_take]; congr 1; omega
    rw [this, List.take_append_drop]

/-! ### C23 -/

/-- C23: set_steps succeeds exactly when the initial axis value occurs as often as there are steps, and then the step
offsets are exactly the positions where it occurs. -/
theorem C23_step_offsets (data : List α) (n : Nat) (h : data ≠ []) :
    setSteps data n =
      if n < (starts data).length then .error .index
      else if (starts data).length < n then .error .spiceRead
      else .ok (starts data) := by
  have hp := starts_pos data h
  cases data with
  | nil => exact absurd rfl h
  | cons d0 rest =>
    unfold setSteps
    by_cases h0 : n = 0
    · rw [if_pos h0, if_pos (by omega)]
    · rw [if_neg h0]
      simp only
      rw [scan_eq n d0 rest 1 [0] (by simp; omega), starts_cons]
      rfl

/-- C23: the per-step slices of a stepped axis concatenate, in order, to the whole axis (with the sign correction of the
time axis). -/
theorem C23_axis_partition (absf : α → α) (isTime : Bool) (data : List α) (n : Nat) (offs : List Nat)
    (h : setSteps data n = .ok offs) :
    (List.range n).flatMap (Axis.getWave absf ⟨isTime, data, some offs⟩) = (if isTime then data.map absf else data) := by
  have g := setSteps_good h
  have hn := (setSteps_ok h).1
  let a : Axis α := ⟨isTime, data, some offs⟩
  have hend : a.stepOffset n = data.length := by
    have : offs[n]? = none := List.getElem?_eq_none (by omega)
    simp only [Axis.stepOffset, a, this]
  have hw : ∀ step, Axis.getWave absf a step =
      (if isTime then (slice data (a.stepOffset step) (a.stepOffset (step + 1))).map absf
        else slice data (a.stepOffset step) (a.stepOffset (step + 1))) := by
    intro step
    simp only [Axis.getWave]
    rw [wave_slice data a offs rfl g step]
  have hc := slices_concat data a offs rfl g n
  rw [hend, List.take_length] at hc
  cases isTime with
  | false =>
    have : (fun step => Axis.getWave absf a step) = fun s => slice data (a.stepOffset s) (a.stepOffset (s + 1)) := by
      funext s; rw [hw s]; rfl
    show (List.range n).flatMap (fun step => Axis.getWave absf a step) = _
    rw [this, hc]; rfl
  | true =>
    have : (fun step => Axis.getWave absf a step) = fun s => (slice data (a.stepOffset s) (a.stepOffset (s + 1))).map absf := by
      funext s; rw [hw s]; rfl
    show (List.range n).flatMap (fun step => Axis.getWave absf a step) = _
    rw [this, ← List.map_flatMap, hc]; rfl

/-- C23: likewise for every trace attached to the stepped axis. -/
theorem C23_trace_partition (isTime : Bool) (data : List α) (n : Nat) (offs : List Nat) (tdata : List β)
    (h : setSteps data n = .ok offs) (hlen : tdata.length = data.length) :
    (List.range n).flatMap (Trace.getWave ⟨tdata, some ⟨isTime, data, some offs⟩⟩) = tdata := by
  have g := setSteps_good h
  have hn := (setSteps_ok h).1
  let a : Axis α := ⟨isTime, data, some offs⟩
  have hend : a.stepOffset n = data.length := by
    have : offs[n]? = none := List.getElem?_eq_none (by omega)
    simp only [Axis.stepOffset, a, this]
  have hc := slices_concat tdata a offs rfl g n
  rw [hend, ← hlen, List.take_length] at hc
  have : (fun s => Trace.getWave ⟨tdata, some a⟩ s) = fun s => slice tdata (a.stepOffset s) (a.stepOffset (s + 1)) := by
    funext s
    simp only [Trace.getWave]
    exact wave_slice tdata a offs rfl g s
  show (List.range n).flatMap (fun s => Trace.getWave ⟨tdata, some a⟩ s) = tdata
  rw [this, hc]

omit [DecidableEq α] in
theorem slice_getElem? (xs : List α) (i j k : Nat) : (slice xs i j)[k]? = if i + k < j then xs[i + k]? else none := by
  unfold slice
  rw [List.getElem?_drop, List.getElem?_take]

omit [DecidableEq α] in
theorem length_slice (xs : List α) (i j : Nat) (h : j ≤ xs.length) : (slice xs i j).length = j - i := by
  unfold slice
  rw [List.length_drop, List.length_take]
  omega

/-- C23: every step of a (raw) stepped axis is non-empty, starts with the initial axis value, and does not take this
value again: no point of a step belongs to another step. -/
theorem C23_axis_chunks (absf : α → α) (data : List α) (n : Nat) (offs : List Nat) (hd : data ≠ [])
    (h : setSteps data n = .ok offs) (step : Nat) (hs : step < n) :
    ∃ rest : List α, Axis.getWave absf ⟨false, data, some offs⟩ step = data.head hd :: rest ∧
      ∀ x ∈ rest, x ≠ data.head hd := by
  have g := setSteps_good h
  obtain ⟨hn, _, h3 | ⟨_, h3⟩⟩ := setSteps_ok h
  · exact absurd h3.1 hd
  let a : Axis α := ⟨false, data, some offs⟩
  have hw : Axis.getWave absf a step = slice data (a.stepOffset step) (a.stepOffset (step + 1)) := by
    simp only [Axis.getWave]
    rw [wave_slice data a offs rfl g step]; rfl
  have hhead : data[0]? = some (data.head hd) := by
    cases data with
    | nil => exact absurd rfl hd
    | cons d r => rfl
  have hso : a.stepOffset step = offs[step] := by
    simp only [Axis.stepOffset, a, List.getElem?_eq_getElem (show step < offs.length by omega)]
  have hmem : offs[step] ∈ starts data := by rw [← h3]; exact List.getElem_mem _
  have hmem2 := List.mem_filter.mp hmem
  have hlt : offs[step] < data.length := List.mem_range.mp hmem2.1
  have hval : data[offs[step]]? = data[0]? := by simpa using hmem2.2
  have hnext : a.stepOffset step < a.stepOffset (step + 1) := by
    rw [hso]
    cases hk : offs[step + 1]? with
    | none => simp only [Axis.stepOffset, a, hk]; exact hlt
    | some o =>
      obtain ⟨hl, he⟩ := List.getElem?_eq_some_iff.mp hk
      simp only [Axis.stepOffset, a, hk]
      have := List.pairwise_iff_getElem.mp g.mono step (step + 1) (by omega) hl (by omega)
      omega
  show ∃ rest : List α, Axis.getWave absf a step = _ ∧ _
  rw [hw]
  cases hsl : slice data (a.stepOffset step) (a.stepOffset (step + 1)) with
  | nil =>
    have h0 := slice_getElem? data (a.stepOffset step) (a.stepOffset (step + 1)) 0
    rw [hsl, if_pos (by omega), hso] at h0
    simp only [List.getElem?_nil, Nat.add_zero, hval, hhead] at h0
    exact absurd h0 (by simp)
  | cons y rest =>
    have h0 := slice_getElem? data (a.stepOffset step) (a.stepOffset (step + 1)) 0
    rw [hsl, if_pos (by omega), hso] at h0
    simp only [List.getElem?_cons_zero, Nat.add_zero, hval, hhead] at h0
    injection h0 with h0
    refine ⟨rest, by rw [h0], ?_⟩
    intro x hx hxe
    obtain ⟨j, hj⟩ := List.mem_iff_getElem?.mp hx
    have hj' := slice_getElem? data (a.stepOffset step) (a.stepOffset (step + 1)) (j + 1)
    rw [hsl, List.getElem?_cons_succ, hj] at hj'
    split_ifs at hj' with hin
    -- the index is a start strictly between two consecutive starts
    have hidx : data[a.stepOffset step + (j + 1)]? = data[0]? := by rw [← hj', hxe, hhead]
    have hlt2 : a.stepOffset step + (j + 1) < data.length := by
      by_contra hc
      rw [List.getElem?_eq_none (by omega)] at hj'
      exact absurd hj' (by simp)
    have hst : a.stepOffset step + (j + 1) ∈ offs := by
      rw [h3]
      exact List.mem_filter.mpr ⟨List.mem_range.mpr hlt2, by simpa using hidx⟩
    obtain ⟨m, hm, hme⟩ := List.mem_iff_getElem.mp hst
    have hpw := List.pairwise_iff_getElem.mp g.mono
    have h1 : step < m := by
      by_contra hc
      rcases Nat.lt_or_ge m step with h' | h'
      · have := hpw m step hm (by omega) h'; omega
      · have : m = step := by omega
        subst this; omega
    have hk1 : offs[step + 1]? = some offs[step + 1] := List.getElem?_eq_getElem (by omega)
    have hso1 : a.stepOffset (step + 1) = offs[step + 1] := by simp only [Axis.stepOffset, a, hk1]
    rcases Nat.lt_or_ge (step + 1) m with h' | h'
    · have := hpw (step + 1) m (by omega) hm h'; omega
    · have : m = step + 1 := by omega
      subst this; omega

omit [DecidableEq α] in
/-- C23: without step information step 0 is the whole waveform. -/
theorem C23_unstepped (data : List α) (tdata : List β) (isTime : Bool) (absf : α → α) (hlen : tdata.length = data.length) :
    Axis.getWave absf ⟨isTime, data, none⟩ 0 = (if isTime then data.map absf else data) ∧
    Trace.getWave ⟨tdata, some (⟨isTime, data, none⟩ : Axis α)⟩ 0 = tdata ∧
    Trace.getWave ⟨tdata, (none : Option (Axis α))⟩ 0 = tdata := by
  refine ⟨?_, ?_, rfl⟩
  · simp only [Axis.getWave, Axis.stepOffset]
    cases isTime <;> simp
  · simp [Trace.getWave, Axis.stepOffset, ← hlen]

/-- C23: get_point(n, step) reads the n-th point of that step, for the axis and for its traces. -/
theorem C23_get_point (isTime : Bool) (data : List α) (n : Nat) (offs : List Nat) (tdata : List β)
    (h : setSteps data n = .ok offs) (hlen : tdata.length = data.length) (step : Nat) (k : Nat) (x : β)
    (hx : (Trace.getWave ⟨tdata, some (⟨isTime, data, some offs⟩ : Axis α)⟩ step)[k]? = some x) :
    Trace.getPoint ⟨tdata, some (⟨isTime, data, some offs⟩ : Axis α)⟩ k step = .ok x := by
  have g := setSteps_good h
  simp only [Trace.getWave] at hx
  rw [wave_slice tdata (⟨isTime, data, some offs⟩ : Axis α) offs rfl g step, slice_getElem?] at hx
  split_ifs at hx with hin
  simp only [Trace.getPoint, hx]

example : setSteps [0, 1, 2, 0, 3, (0 : Rat)] 3 = .ok [0, 3, 5] := by decide +kernel
example : Trace.getWave ⟨[10, 11, 12, 13, 14, 15], some (⟨true, [0, 1, 2, 0, 3, 0], some [0, 3, 5]⟩ : Axis Nat)⟩ 1 = [13, 14] := by
  decide
example : setSteps [0, 1, 0, (2 : Rat)] 3 = .error .spiceRead ∧ setSteps [0, 1, 0, (0 : Rat)] 2 = .error .index := by
  decide +kernel

/-! ### C27 -/

omit [DecidableEq α] in
theorem off_le' (a : Axis α) (h : ∀ offs, a.offsets = some offs → Good offs a.data.length) (k : Nat) :
    a.stepOffset k ≤ a.data.length := by
  cases ho : a.offsets with
  | none => unfold Axis.stepOffset; rw [ho]; simp only; split_ifs <;> omega
  | some offs => exact off_le a offs ho (h offs ho) k

/-- C27: Axis.get_len(step) is the number of points get_wave(step) returns, for stepped and unstepped data, for every
step (0 beyond the last one). -/
theorem C27_axis_len (absf : α → α) (isTime : Bool) (data : List α) (offs? : Option (List Nat))
    (h : ∀ offs, offs? = some offs → ∃ n, setSteps data n = .ok offs) (step : Nat) :
    Axis.getLen ⟨isTime, data, offs?⟩ step = (Axis.getWave absf ⟨isTime, data, offs?⟩ step).length := by
  let a : Axis α := ⟨isTime, data, offs?⟩
  have hg : ∀ offs, a.offsets = some offs → Good offs a.data.length := by
    intro offs ho
    obtain ⟨n, hn⟩ := h offs ho
    exact setSteps_good hn
  have hle := off_le' a hg
  have hlen : (Axis.getWave absf a step).length
      = (if step = 0 then a.data.take (a.stepOffset 1) else slice a.data (a.stepOffset step) (a.stepOffset (step + 1))).length := by
    simp only [Axis.getWave]
    split_ifs <;> simp
  show Axis.getLen a step = (Axis.getWave absf a step).length
  rw [hlen, Axis.getLen]
  by_cases hs : step = 0
  · subst hs
    have h0 : a.stepOffset 0 = 0 := by
      cases ho : a.offsets with
      | none => simp [Axis.stepOffset, ho]
      | some offs => simp only [Axis.stepOffset, ho, (hg offs ho).zero]
    have := hle 1
    simp [h0]; omega
  · rw [if_neg hs, length_slice _ _ _ (hle _)]

/-- C27: len(axis) is the length of the first step. -/
theorem C27_axis_dunder_len (absf : α → α) (isTime : Bool) (data : List α) (offs? : Option (List Nat))
    (h : ∀ offs, offs? = some offs → ∃ n, setSteps data n = .ok offs) :
    Axis.len ⟨isTime, data, offs?⟩ = (Axis.getWave absf ⟨isTime, data, offs?⟩ 0).length := by
  rw [← C27_axis_len absf isTime data offs? h 0]
  cases offs? with
  | none => simp [Axis.len, Axis.getLen, Axis.stepOffset]
  | some offs => rfl

/-- C27 (full statement, for traces): TraceRead.get_len(step) = len(get_wave(step)) for every step. Only step 0 is true:
see the counterexample below. -/
theorem C27_trace_len (isTime : Bool) (data : List α) (tdata : List β) (offs? : Option (List Nat))
    (h : ∀ offs, offs? = some offs → ∃ n, setSteps data n = .ok offs) (hlen : tdata.length = data.length) :
    Trace.getLen (β := β) (⟨isTime, data, offs?⟩ : Axis α) 0 = (Trace.getWave ⟨tdata, some ⟨isTime, data, offs?⟩⟩ 0).length := by
  have hle := off_le' (⟨isTime, data, offs?⟩ : Axis α)
    (by intro offs ho; obtain ⟨n, hn⟩ := h offs ho; exact setSteps_good hn) 1
  simp only [Trace.getWave, Trace.getLen]
  simp at hle ⊢
  omega

/-- C27: what TraceRead.get_len(step) gives is the number of points up to and including that step. -/
theorem C27_trace_len_actual (isTime : Bool) (data : List α) (n : Nat) (offs : List Nat) (tdata : List β)
    (h : setSteps data n = .ok offs) (hlen : tdata.length = data.length) (step : Nat) :
    Trace.getLen (β := β) (⟨isTime, data, some offs⟩ : Axis α) step
      = ((List.range (step + 1)).flatMap (Trace.getWave ⟨tdata, some (⟨isTime, data, some offs⟩ : Axis α)⟩)).length := by
  have g := setSteps_good h
  let a : Axis α := ⟨isTime, data, some offs⟩
  have hf : (fun s => Trace.getWave ⟨tdata, some a⟩ s) = fun s => slice tdata (a.stepOffset s) (a.stepOffset (s + 1)) := by
    funext s
    simp only [Trace.getWave]
    exact wave_slice tdata a offs rfl g s
  show Trace.getLen (β := β) a step = ((List.range (step + 1)).flatMap (fun s => Trace.getWave ⟨tdata, some a⟩ s)).length
  rw [hf, slices_concat tdata a offs rfl g (step + 1), List.length_take, Trace.getLen]
  have := off_le a offs rfl g (step + 1)
  show a.stepOffset (step + 1) = min (a.stepOffset (step + 1)) tdata.length
  rw [hlen]
  exact (Nat.min_eq_left this).symm

/-- C27 fails for traces: with steps of 3 and 2 points, get_len(1) of a trace is 5. -/
theorem C27_trace_len_wrong : Trace.getLen (β := Nat) (⟨false, [0, 1, 2, 0, 3], some [0, 3]⟩ : Axis Nat) 1 = 5 ∧
    (Trace.getWave ⟨[10, 11, 12, 13, 14], some (⟨false, [0, 1, 2, 0, 3], some [0, 3]⟩ : Axis Nat)⟩ 1).length = 2 := by
  decide

/-! ### C26 -/

/-- What get_position returns on strictly increasing data. -/
theorem position_spec (t : Rat) : ∀ (xs : List Rat) (i : Nat) (prev : Rat), xs.Pairwise (· < ·) → (∀ x ∈ xs, prev < x) →
    prev < t →  0 < i → (∃ x ∈ xs, t ≤ x) →
    (∃ k, position t xs i prev = .ok (.int (i + k)) ∧ xs[k]? = some t) ∨
    (∃ (k : Nat) (x0 x1 f : Rat), position t xs i prev = .ok (.float (((i + k - 1 : Nat) : Rat) + f)) ∧
      (prev :: xs)[k]? = some x0 ∧ xs[k]? = some x1 ∧ 0 < f ∧ f < 1 ∧ t = x0 + f * (x1 - x0)) := by
  intro xs
  induction xs with
  | nil => intro i prev _ _ _ _ h; obtain ⟨x, hx, _⟩ := h; exact absurd hx (by simp)
  | cons x xs ih =>
    intro i prev hp hprev ht hi hex
    rw [List.pairwise_cons] at hp
    by_cases h1 : x = t
    · left
      exact ⟨0, by simp [position, h1], by simp [h1]⟩
    · by_cases h2 : x > t
      · right
        have hpx := hprev x (by simp)
        have hpos : 0 < x - prev := by linarith
        refine ⟨0, prev, x, (t - prev) / (x - prev), ?_, rfl, rfl, ?_, ?_, ?_⟩
        · simp only [position, if_neg h1, if_pos h2, if_neg (by omega : ¬ i = 0)]
          simp
        · exact div_pos (by linarith) hpos
        · rw [div_lt_one hpos]; linarith
        · field_simp; ring
      · have hxt : x < t := lt_of_le_of_ne (not_lt.mp h2) h1
        have hex' : ∃ y ∈ xs, t ≤ y := by
          obtain ⟨y, hy, hty⟩ := hex
          rcases List.mem_cons.mp hy with rfl | hy
          · exact absurd hty (not_le.mpr hxt)
          · exact ⟨y, hy, hty⟩
        have hstep : position t (x :: xs) i prev = position t xs (i + 1) x := by
          simp only [position, if_neg h1, if_neg h2]
        rcases ih (i + 1) x hp.2 hp.1 hxt (by omega) hex' with ⟨k, hk1, hk2⟩ | ⟨k, x0, x1, f, hk, h0, h3, hf0, hf1, hteq⟩
        · left
          exact ⟨k + 1, by rw [hstep, hk1, show i + 1 + k = i + (k + 1) by omega], by simpa using hk2⟩
        · right
          refine ⟨k + 1, x0, x1, f, ?_, by simpa using h0, by simpa using h3, hf0, hf1, hteq⟩
          rw [hstep, hk, show i + 1 + k - 1 = i + (k + 1) - 1 by omega]

/-- The abscissas of one step as get_position sees them. -/
def stepAxis (a : Axis Rat) (step : Nat) : List Rat := a.getWave (fun x => |x|) step

theorem getPosition_cases (a : Axis Rat) (step : Nat) (t first last : Rat) (hinc : (stepAxis a step).Pairwise (· < ·))
    (hfirst : (stepAxis a step).head? = some first) (hlast : (stepAxis a step).getLast? = some last)
    (h0 : first ≤ t) (h1 : t ≤ last) :
    (∃ k, a.getPosition t step = .ok (.int k) ∧ (stepAxis a step)[k]? = some t) ∨
    (∃ (k : Nat) (x0 x1 f : Rat), a.getPosition t step = .ok (.float ((k : Rat) + f)) ∧
      (stepAxis a step)[k]? = some x0 ∧ (stepAxis a step)[k + 1]? = some x1 ∧ 0 < f ∧ f < 1 ∧ t = x0 + f * (x1 - x0)) := by
  unfold Axis.getPosition
  unfold stepAxis at hinc hfirst hlast ⊢
  generalize hxs : a.getWave (fun x => |x|) step = xs at *
  cases xs with
  | nil => exact absurd hfirst (by simp)
  | cons x xs =>
    simp only [List.head?_cons, Option.some.injEq] at hfirst
    subst hfirst
    rw [List.pairwise_cons] at hinc
    rcases eq_or_lt_of_le h0 with h | h
    · left; exact ⟨0, by simp [position, h], by simp [h]⟩
    · have hstep : position t (x :: xs) 0 0 = position t xs 1 x := by
        simp only [position, if_neg (ne_of_lt h), if_neg (not_lt.mpr h0)]
      have hex : ∃ y ∈ xs, t ≤ y := by
        have hmem := List.mem_of_getLast? hlast
        rcases List.mem_cons.mp hmem with rfl | hm
        · exact absurd h1 (not_le.mpr h)
        · exact ⟨last, hm, h1⟩
      rw [hstep]
      rcases position_spec t xs 1 x hinc.2 hinc.1 h (by omega) hex with ⟨k, hk1, hk2⟩ | ⟨k, x0, x1, f, hk, hk0, hk1, hf0, hf1, ht⟩
      · left; exact ⟨1 + k, hk1, by rw [Nat.add_comm]; simpa using hk2⟩
      · right
        refine ⟨k, x0, x1, f, ?_, hk0, by simpa using hk1, hf0, hf1, ht⟩
        rw [hk]
        congr 3
        simp

/-- C26: on a strictly increasing axis and for every value between its first and last point, get_position returns an
index at which the axis equals the value, or a fractional index `k + f` (0 < f < 1) such that the value is a fraction `f`
of the way from point `k` to point `k + 1`. -/
theorem C26_position (a : Axis Rat) (step : Nat) (t first last : Rat)
    (hinc : (a.getWave (fun x => |x|) step).Pairwise (· < ·))
    (hfirst : (a.getWave (fun x => |x|) step).head? = some first)
    (hlast : (a.getWave (fun x => |x|) step).getLast? = some last)
    (h0 : first ≤ t) (h1 : t ≤ last) :
    (∃ k, a.getPosition t step = .ok (.int k) ∧ (a.getWave (fun x => |x|) step)[k]? = some t) ∨
    (∃ (k : Nat) (x0 x1 f : Rat), a.getPosition t step = .ok (.float ((k : Rat) + f)) ∧
      (a.getWave (fun x => |x|) step)[k]? = some x0 ∧ (a.getWave (fun x => |x|) step)[k + 1]? = some x1 ∧
      0 < f ∧ f < 1 ∧ t = x0 + f * (x1 - x0)) :=
  getPosition_cases a step t first last hinc hfirst hlast h0 h1

/-- C26: below the first point get_position raises IndexError; above the last point it returns None. -/
theorem C26_position_outside (a : Axis Rat) (step : Nat) (t : Rat) :
    (∀ first, (a.getWave (fun x => |x|) step).head? = some first → t < first → a.getPosition t step = .error .index) ∧
    ((∀ x ∈ a.getWave (fun x => |x|) step, x < t) → a.getPosition t step = .ok .none) := by
  constructor
  · intro first hf ht
    unfold Axis.getPosition
    cases hxs : a.getWave (fun x => |x|) step with
    | nil => rw [hxs] at hf; exact absurd hf (by simp)
    | cons x xs =>
      rw [hxs] at hf
      simp only [List.head?_cons, Option.some.injEq] at hf
      subst hf
      simp only [position, if_neg (ne_of_gt ht)]
      rw [if_pos ht]
      rfl
  · have hall : ∀ (xs : List Rat) (i : Nat) (p : Rat), (∀ x ∈ xs, x < t) → position t xs i p = .ok .none := by
      intro xs
      induction xs with
      | nil => intro i p _; rfl
      | cons x xs ih =>
        intro i p h
        have hx := h x (by simp)
        simp only [position, if_neg (ne_of_lt hx), if_neg (not_lt.mpr (le_of_lt hx))]
        exact ih _ _ (fun y hy => h y (by simp [hy]))
    intro h
    exact hall _ 0 0 h

/-- C26: get_point_at(t, step) of a trace is the linear interpolation of the trace at abscissa `t` within that step, for
every `t` between the first and last abscissas of the step (stepped data or not). -/
theorem C26_point_at (isTime : Bool) (data tdata : List Rat) (offs? : Option (List Nat))
    (h : ∀ offs, offs? = some offs → ∃ n, setSteps data n = .ok offs) (hlen : tdata.length = data.length)
    (step : Nat) (t first last : Rat)
    (hinc : (Axis.getWave (fun x => |x|) ⟨isTime, data, offs?⟩ step).Pairwise (· < ·))
    (hfirst : (Axis.getWave (fun x => |x|) ⟨isTime, data, offs?⟩ step).head? = some first)
    (hlast : (Axis.getWave (fun x => |x|) ⟨isTime, data, offs?⟩ step).getLast? = some last)
    (h0 : first ≤ t) (h1 : t ≤ last) :
    ∃ v : Rat, getPointAt tdata ⟨isTime, data, offs?⟩ t step = .ok v ∧
      OnPolyline (Axis.getWave (fun x => |x|) ⟨isTime, data, offs?⟩ step)
        (Trace.getWave ⟨tdata, some (⟨isTime, data, offs?⟩ : Axis Rat)⟩ step) t v := by
  have hzero : ∀ offs, offs? = some offs → Good offs data.length := by
    intro offs ho; obtain ⟨n, hn⟩ := h offs ho; exact setSteps_good hn
  have hcases := getPosition_cases ⟨isTime, data, offs?⟩ step t first last hinc hfirst hlast h0 h1
  have hle : ∀ k, Axis.stepOffset (⟨isTime, data, offs?⟩ : Axis Rat) k ≤ data.length :=
    off_le' (⟨isTime, data, offs?⟩ : Axis Rat) hzero
  have h00 : Axis.stepOffset (⟨isTime, data, offs?⟩ : Axis Rat) 0 = 0 := by
    cases offs? with
    | none => simp [Axis.stepOffset]
    | some offs => simp only [Axis.stepOffset, (hzero offs rfl).zero]
  -- the trace and the axis are sliced in the same way
  have hwl : (stepAxis ⟨isTime, data, offs?⟩ step).length
      = Axis.stepOffset (⟨isTime, data, offs?⟩ : Axis Rat) (step + 1) - Axis.stepOffset (⟨isTime, data, offs?⟩ : Axis Rat) step := by
    unfold stepAxis
    rw [← C27_axis_len (fun x : Rat => |x|) isTime data offs? h step]
    rfl
  have htw : ∀ k, k < (stepAxis ⟨isTime, data, offs?⟩ step).length →
      (Trace.getWave ⟨tdata, some (⟨isTime, data, offs?⟩ : Axis Rat)⟩ step)[k]?
        = tdata[Axis.stepOffset (⟨isTime, data, offs?⟩ : Axis Rat) step + k]? := by
    intro k hk
    rw [hwl] at hk
    simp only [Trace.getWave]
    by_cases hs : step = 0
    · subst hs
      rw [if_pos rfl, List.getElem?_take, h00]
      rw [h00] at hk
      simp only [Nat.zero_add] at hk ⊢
      rw [if_pos (by omega)]
    · rw [if_neg hs, slice_getElem?, if_pos (by omega)]
  have hget : ∀ k, k < (stepAxis ⟨isTime, data, offs?⟩ step).length →
      ∃ y, tdata[Axis.stepOffset (⟨isTime, data, offs?⟩ : Axis Rat) step + k]? = some y := by
    intro k hk
    rw [hwl] at hk
    have := hle (step + 1)
    exact ⟨_, List.getElem?_eq_getElem (by omega)⟩
  rcases hcases with ⟨k, hk, hkt⟩ | ⟨k, x0, x1, f, hk, hx0, hx1, hf0, hf1, ht⟩
  · have hkl := (List.getElem?_eq_some_iff.mp hkt).1
    obtain ⟨y, hy⟩ := hget k hkl
    refine ⟨y, ?_, Or.inl ⟨k, hkt, ?_⟩⟩
    · unfold getPointAt
      rw [hk]
      simp only [hy]
    · rw [htw k hkl, hy]
  · have hkl := (List.getElem?_eq_some_iff.mp hx1).1
    obtain ⟨y0, hy0⟩ := hget k (by omega)
    obtain ⟨y1, hy1⟩ := hget (k + 1) hkl
    refine ⟨y0 + f * (y1 - y0), ?_, Or.inr ⟨k, x0, x1, y0, y1, f, hx0, hx1, ?_, ?_, hf0, hf1, ht, rfl⟩⟩
    · unfold getPointAt
      rw [hk]
      have hfl : ((k : Rat) + f).floor = (k : Int) := by
        have : ⌊(k : Rat) + f⌋ = (k : Int) := by
          rw [Int.floor_eq_iff]
          constructor
          · push_cast; linarith
          · push_cast; linarith
        exact this
      simp only [hfl, Int.toNat_natCast]
      have hlast' : ((k : Nat) : Int) < (Trace.getLen (β := Rat) (⟨isTime, data, offs?⟩ : Axis Rat) step : Int) - 1 := by
        unfold Trace.getLen
        rw [hwl] at hkl
        omega
      rw [if_pos hlast']
      rw [← Nat.add_assoc] at hy1
      simp only [hy0, hy1]
      congr 2
      ring
    · rw [htw k (by omega), hy0]
    · rw [htw (k + 1) hkl, hy1]

/-- C26: the interpolated value is unique, so the previous theorem determines it. -/
theorem C26_interpolation_unique (xs ys : List Rat) (t v w : Rat) (hinc : xs.Pairwise (· < ·))
    (hv : OnPolyline xs ys t v) (hw : OnPolyline xs ys t w) : v = w := by
  have hlt : ∀ (i j : Nat) (x y : Rat), xs[i]? = some x → xs[j]? = some y → i < j → x < y := by
    intro i j x y hi hj hij
    obtain ⟨hil, rfl⟩ := List.getElem?_eq_some_iff.mp hi
    obtain ⟨hjl, rfl⟩ := List.getElem?_eq_some_iff.mp hj
    exact List.pairwise_iff_getElem.mp hinc i j hil hjl hij
  have hle : ∀ (i j : Nat) (x y : Rat), xs[i]? = some x → xs[j]? = some y → i ≤ j → x ≤ y := by
    intro i j x y hi hj hij
    rcases Nat.lt_or_ge i j with h | h
    · exact le_of_lt (hlt i j x y hi hj h)
    · have : i = j := by omega
      subst this; rw [hi] at hj; injection hj with hj; exact le_of_eq hj
  -- an abscissa is never strictly inside a segment
  have hno : ∀ (i k : Nat) (x0 x1 f : Rat), xs[i]? = some t → xs[k]? = some x0 → xs[k + 1]? = some x1 → 0 < f → f < 1 →
      t = x0 + f * (x1 - x0) → False := by
    intro i k x0 x1 f hi h0 h1 hf0 hf1 ht
    have h01 := hlt k (k + 1) x0 x1 h0 h1 (by omega)
    have hpos : 0 < f * (x1 - x0) := mul_pos hf0 (by linarith)
    have hup : f * (x1 - x0) < x1 - x0 := by
      have := mul_lt_mul_of_pos_right hf1 (show 0 < x1 - x0 by linarith)
      linarith
    rcases Nat.lt_or_ge k i with h | h
    · have := hle (k + 1) i x1 t h1 hi (by omega); linarith
    · have := hle i k t x0 hi h0 h; linarith
  rcases hv with ⟨i, hi, hvi⟩ | ⟨k, x0, x1, y0, y1, f, h0, h1, hy0, hy1, hf0, hf1, ht, rfl⟩
  · rcases hw with ⟨j, hj, hwj⟩ | ⟨k, x0, x1, y0, y1, f, h0, h1, hy0, hy1, hf0, hf1, ht, rfl⟩
    · rcases Nat.lt_trichotomy i j with h | h | h
      · have := hlt i j t t hi hj h; exact absurd this (lt_irrefl _)
      · subst h; rw [hvi] at hwj; injection hwj
      · have := hlt j i t t hj hi h; exact absurd this (lt_irrefl _)
    · exact (hno i k x0 x1 f hi h0 h1 hf0 hf1 ht).elim
  · rcases hw with ⟨j, hj, hwj⟩ | ⟨k', x0', x1', y0', y1', f', h0', h1', hy0', hy1', hf0', hf1', ht', rfl⟩
    · exact (hno j k x0 x1 f hj h0 h1 hf0 hf1 ht).elim
    · have h01 := hlt k (k + 1) x0 x1 h0 h1 (by omega)
      have h01' := hlt k' (k' + 1) x0' x1' h0' h1' (by omega)
      have e1 : 0 < f * (x1 - x0) := mul_pos hf0 (by linarith)
      have e2 : f * (x1 - x0) < x1 - x0 := by
        have := mul_lt_mul_of_pos_right hf1 (show 0 < x1 - x0 by linarith); linarith
      have e1' : 0 < f' * (x1' - x0') := mul_pos hf0' (by linarith)
      have e2' : f' * (x1' - x0') < x1' - x0' := by
        have := mul_lt_mul_of_pos_right hf1' (show 0 < x1' - x0' by linarith); linarith
      rcases Nat.lt_trichotomy k k' with h | h | h
      · have := hle (k + 1) k' x1 x0' h1 h0' (by omega); linarith
      · subst h
        rw [h0] at h0'; rw [h1] at h1'; rw [hy0] at hy0'; rw [hy1] at hy1'
        injection h0' with h0'; injection h1' with h1'; injection hy0' with hy0'; injection hy1' with hy1'
        subst h0' h1' hy0' hy1'
        have : f = f' := by
          have hne : x1 - x0 ≠ 0 := by intro hc; linarith
          have : f * (x1 - x0) = f' * (x1 - x0) := by linarith
          exact mul_right_cancel₀ hne this
        rw [this]
      · have := hle (k' + 1) k x1' x0 h1' h0 (by omega); linarith

example : getPointAt [10, 20, 40, 1, 3] ⟨true, [0, 1, -2, 0, 4], some [0, 3]⟩ (3/2) 0 = .ok 30 ∧
    getPointAt [10, 20, 40, 1, 3] ⟨true, [0, 1, -2, 0, 4], some [0, 3]⟩ 1 1 = .ok (3/2) ∧
    getPointAt [10, 20, 40, 1, 3] ⟨true, [0, 1, -2, 0, 4], some [0, 3]⟩ 5 1 = .error .type := by decide +kernel

end Props.RawClasses
