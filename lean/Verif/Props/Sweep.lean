import Verif.Lemmas.Sweep
/-
C01-C04: sweep iterators (utils/sweep_iterators.py).
`Drains next obj xs _` = `list(obj)` gives `xs`  (see Spec/Iter.lean).
-/
namespace Props.Sweep
open Model.Sweep Spec Lemmas.Sweep

/-! ### C01 – linear sweep -/

/-- English: the sweep starts at `start`, except that a negative step with `start < stop` means
"count down from `stop`". -/
def linFirst (start stop step : ℚ) : ℚ := if step < 0 ∧ start < stop then stop else start
/-- The other end of the sweep. -/
def linLast (start stop step : ℚ) : ℚ := if step < 0 ∧ start < stop then start else stop
/-- Signed increment: `|step|` towards `last`. -/
def linDelta (start stop step : ℚ) : ℚ :=
  if linFirst start stop step < linLast start stop step then |step|
  else if linLast start stop step < linFirst start stop step then -|step| else step

/-- C01: `list(sweep(start, stop, step))` is exactly the grid of
`⌊|stop-start|/|step|⌋ + 1` points from `first` towards `last`. -/
theorem C01_sweep_exact (start stop step : ℚ) (hstep : step ≠ 0) :
    ∃ sw e, Lin.new start (some stop) step = some sw ∧
      Drains Lin.next sw
        ((List.range (⌊|stop - start| / |step|⌋₊ + 1)).map
          fun k : ℕ => linFirst start stop step + (k : ℚ) * linDelta start stop step) e := by
  rcases lt_or_gt_of_ne hstep with hneg | hpos
  · -- step < 0
    by_cases hlt : start < stop
    · refine ⟨{ start := stop, stop := start, step := step, niter := 0, finished := false }, ?_⟩
      have e1 : |stop - start| = stop - start := abs_of_pos (by linarith)
      have e2 : |step| = -step := abs_of_neg hneg
      have e3 : linFirst start stop step = stop := by simp [linFirst, hneg, hlt]
      have e4 : linLast start stop step = start := by simp [linLast, hneg, hlt]
      have e5 : linDelta start stop step = step := by
        simp [linDelta, e3, e4, e2, not_lt.mpr hlt.le, hlt]
      rw [e1, e2, e3, e5]
      obtain ⟨e, he⟩ := lin_drains ⟨stop, start, step, 0, false⟩ (⌊(stop - start) / -step⌋₊ + 1) rfl
        (by intro i hi
            rw [floor_in _ _ _ (by linarith) hlt.le] at hi
            right; exact ⟨hneg, by dsimp only; linarith⟩)
        (by have := (floor_in start stop (-step) (by linarith) hlt.le (⌊(stop - start) / -step⌋₊ + 1)).not.mp (by omega)
            rintro (⟨h, _⟩ | ⟨_, h⟩)
            · dsimp only at h; linarith
            · apply this; dsimp only at h; linarith)
      exact ⟨e, by simp [Lin.new, hstep, hneg, hlt], he⟩
    · have hle : stop ≤ start := not_lt.mp hlt
      refine ⟨{ start := start, stop := stop, step := step, niter := 0, finished := false }, ?_⟩
      have e1 : |stop - start| = start - stop := by rw [abs_sub_comm]; exact abs_of_nonneg (by linarith)
      have e2 : |step| = -step := abs_of_neg hneg
      have e3 : linFirst start stop step = start := by simp [linFirst, hlt]
      have e4 : linLast start stop step = stop := by simp [linLast, hlt]
      have e5 : linDelta start stop step = step := by
        simp only [linDelta, e3, e4, e2, hlt, if_false]; split <;> ring
      rw [e1, e2, e3, e5]
      obtain ⟨e, he⟩ := lin_drains ⟨start, stop, step, 0, false⟩ (⌊(start - stop) / -step⌋₊ + 1) rfl
        (by intro i hi
            rw [floor_in _ _ _ (by linarith) hle] at hi
            right; exact ⟨hneg, by dsimp only; linarith⟩)
        (by have := (floor_in stop start (-step) (by linarith) hle (⌊(start - stop) / -step⌋₊ + 1)).not.mp (by omega)
            rintro (⟨h, _⟩ | ⟨_, h⟩)
            · dsimp only at h; linarith
            · apply this; dsimp only at h; linarith)
      exact ⟨e, by simp [Lin.new, hstep, hlt, not_lt.mpr hneg.le], he⟩
  · by_cases hlt : stop < start
    · refine ⟨{ start := start, stop := stop, step := -step, niter := 0, finished := false }, ?_⟩
      have e1 : |stop - start| = start - stop := by rw [abs_sub_comm]; exact abs_of_pos (by linarith)
      have e2 : |step| = step := abs_of_pos hpos
      have e3 : linFirst start stop step = start := by simp [linFirst, not_lt.mpr hpos.le]
      have e4 : linLast start stop step = stop := by simp [linLast, not_lt.mpr hpos.le]
      have e5 : linDelta start stop step = -step := by
        simp [linDelta, e3, e4, e2, not_lt.mpr hlt.le, hlt]
      rw [e1, e2, e3, e5]
      obtain ⟨e, he⟩ := lin_drains ⟨start, stop, -step, 0, false⟩ (⌊(start - stop) / step⌋₊ + 1) rfl
        (by intro i hi
            rw [floor_in _ _ _ hpos hlt.le] at hi
            right; exact ⟨by dsimp only; linarith, by dsimp only; linarith⟩)
        (by have := (floor_in stop start step hpos hlt.le (⌊(start - stop) / step⌋₊ + 1)).not.mp (by omega)
            rintro (⟨h, _⟩ | ⟨_, h⟩)
            · dsimp only at h; linarith
            · apply this; dsimp only at h; linarith)
      exact ⟨e, by simp [Lin.new, hstep, not_lt.mpr hpos.le, hpos, hlt], he⟩
    · have hle : start ≤ stop := not_lt.mp hlt
      refine ⟨{ start := start, stop := stop, step := step, niter := 0, finished := false }, ?_⟩
      have e1 : |stop - start| = stop - start := abs_of_nonneg (by linarith)
      have e2 : |step| = step := abs_of_pos hpos
      have e3 : linFirst start stop step = start := by simp [linFirst, not_lt.mpr hpos.le]
      have e4 : linLast start stop step = stop := by simp [linLast, not_lt.mpr hpos.le]
      have e5 : linDelta start stop step = step := by
        simp only [linDelta, e3, e4, e2, hlt, if_false]; split <;> rfl
      rw [e1, e2, e3, e5]
      obtain ⟨e, he⟩ := lin_drains ⟨start, stop, step, 0, false⟩ (⌊(stop - start) / step⌋₊ + 1) rfl
        (by intro i hi
            rw [floor_in _ _ _ hpos hle] at hi
            left; exact ⟨hpos, by dsimp only; linarith⟩)
        (by have := (floor_in start stop step hpos hle (⌊(stop - start) / step⌋₊ + 1)).not.mp (by omega)
            rintro (⟨_, h⟩ | ⟨h, _⟩)
            · apply this; dsimp only at h; linarith
            · dsimp only at h; linarith)
      exact ⟨e, by simp [Lin.new, hstep, not_lt.mpr hpos.le, hlt], he⟩

/-- Membership form of C01: whatever list the sweep produces, a number is in it iff it is a grid point
(reached from `first` by a whole number of `|step|` strides towards `last`) inside the closed interval. -/
theorem C01_sweep_membership (start stop step : ℚ) (hstep : step ≠ 0) (sw : Lin)
    (hnew : Lin.new start (some stop) step = some sw) (xs : List ℚ) (e : Lin)
    (h : Drains Lin.next sw xs e) (x : ℚ) :
    x ∈ xs ↔ (min start stop ≤ x ∧ x ≤ max start stop) ∧
      ∃ k : ℕ, x = linFirst start stop step + (k : ℚ) * linDelta start stop step := by
  obtain ⟨sw', e', h1, h2⟩ := C01_sweep_exact start stop step hstep
  rw [hnew] at h1; cases h1
  obtain ⟨rfl, _⟩ := h.deterministic h2
  have hp : 0 < |step| := abs_pos.mpr hstep
  have key : ∀ k : ℕ, k < ⌊|stop - start| / |step|⌋₊ + 1 ↔ (k : ℚ) * |step| ≤ |stop - start| := by
    intro k
    have := floor_in 0 |stop - start| |step| hp (abs_nonneg _) k
    rw [sub_zero, zero_add] at this; exact this
  have key2 : ∀ k : ℕ, (k : ℚ) * |step| ≤ |stop - start| ↔
      (min start stop ≤ linFirst start stop step + (k : ℚ) * linDelta start stop step ∧
       linFirst start stop step + (k : ℚ) * linDelta start stop step ≤ max start stop) := by
    intro k
    have hk : (0:ℚ) ≤ (k:ℚ) * |step| := by positivity
    rcases lt_trichotomy start stop with hlt | heq | hgt
    · rw [min_eq_left hlt.le, max_eq_right hlt.le, abs_of_pos (show 0 < stop - start by linarith)]
      by_cases hn : step < 0
      · simp only [linDelta, linFirst, linLast, hn, hlt, and_self, if_true, if_false, not_lt.mpr hlt.le]
        constructor
        · intro h; constructor <;> linarith
        · rintro ⟨h1, _⟩; linarith
      · simp only [linDelta, linFirst, linLast, hn, hlt, false_and, if_true, if_false]
        constructor
        · intro h; constructor <;> linarith
        · rintro ⟨_, h1⟩; linarith
    · subst heq
      simp only [linDelta, linFirst, linLast, lt_irrefl, and_false, if_false, min_self, max_self, sub_self, abs_zero]
      have hk0 : (0:ℚ) ≤ k := by positivity
      constructor
      · intro h
        have : (k:ℚ) * |step| = 0 := le_antisymm h hk
        have hk : (k:ℚ) = 0 := by
          rcases mul_eq_zero.mp this with h | h
          · exact h
          · exact absurd h hp.ne'
        rw [hk]; constructor <;> simp
      · rintro ⟨h1, h2⟩
        have : (k:ℚ) * step = 0 := by linarith
        rcases mul_eq_zero.mp this with h | h
        · rw [h]; simp
        · exact absurd h hstep
    · rw [min_eq_right hgt.le, max_eq_left hgt.le, abs_of_neg (show stop - start < 0 by linarith)]
      simp only [linDelta, linFirst, linLast, hgt, not_lt.mpr hgt.le, and_false, if_true, if_false]
      constructor
      · intro h; constructor <;> linarith
      · rintro ⟨h1, _⟩; linarith
  simp only [List.mem_map, List.mem_range]
  constructor
  · rintro ⟨k, hk, rfl⟩
    exact ⟨(key2 k).mp ((key k).mp hk), k, rfl⟩
  · rintro ⟨hx, k, rfl⟩
    exact ⟨k, (key k).mpr ((key2 k).mpr hx), rfl⟩

/-- C01: `sweep(x, step)` is `sweep(0, x, step)`. -/
theorem C01_sweep_one_argument (x step : ℚ) : Lin.new x none step = Lin.new 0 (some x) step := rfl

/-- C01: a zero step is rejected, and only a zero step. -/
theorem C01_sweep_rejects_zero_step (start : ℚ) (stop : Option ℚ) (step : ℚ) :
    Lin.new start stop step = none ↔ step = 0 := by
  unfold Lin.new
  cases stop <;> (simp only; split_ifs <;> simp_all)

/-- C01: iterating again (at any point, also after exhaustion or after a partial iteration: any number
`m` of `__next__` calls) gives the same list as the fresh object. -/
theorem C01_sweep_restart (start : ℚ) (stop : Option ℚ) (step : ℚ) (sw : Lin)
    (hnew : Lin.new start stop step = some sw) (m : ℕ) (xs : List ℚ) (e : Lin) :
    Drains Lin.next sw xs e ↔ Drains Lin.next ((fun s => (Lin.next s).2)^[m] sw).iter xs e := by
  have h1 : ∀ (m : ℕ) (s : Lin), ((fun s => (Lin.next s).2)^[m] s).iter = s.iter := by
    intro m
    induction m with
    | zero => intro s; rfl
    | succ m ih =>
      intro s
      rw [Function.iterate_succ_apply, ih]
      simp only [Lin.next]; split <;> rfl
  have h2 : sw.iter = sw := by
    unfold Lin.new at hnew
    simp only at hnew
    split_ifs at hnew <;> simp at hnew <;> subst hnew <;> rfl
  rw [h1, h2]

/-- non-vacuity: sweep(2, 8, -2) counts 8,6,4,2. -/
example : ∃ sw e, Lin.new 2 (some 8) (-2) = some sw ∧ Drains Lin.next sw [8, 6, 4, 2] e := by
  obtain ⟨sw, e, h1, h2⟩ := C01_sweep_exact 2 8 (-2) (by norm_num)
  refine ⟨sw, e, h1, ?_⟩
  have : (⌊|(8:ℚ) - 2| / |(-2:ℚ)|⌋₊ + 1) = 4 := by norm_num
  rw [this] at h2
  have h3 : linFirst 2 8 (-2) = 8 := by norm_num [linFirst]
  have h4 : linDelta 2 8 (-2) = -2 := by norm_num [linDelta, linFirst, linLast]
  rw [h3, h4] at h2
  simp only [List.range, List.range.loop, List.map] at h2
  norm_num at h2
  exact h2

/-! ### C02 – sweep_n -/

/-- C02: for `N ≥ 2` and `start ≠ stop`, `sweep_n(start, stop, N)` yields exactly the `N` equidistant
points `start + k*(stop-start)/(N-1)`. -/
theorem C02_sweep_n_points (start stop : ℚ) (N : ℕ) (hN : 2 ≤ N) (hne : start ≠ stop) :
    ∃ sw e, sweepN start stop N = some sw ∧
      Drains Lin.next sw ((List.range N).map
        fun k : ℕ => start + (k : ℚ) * ((stop - start) / ((N : ℚ) - 1))) e := by
  have hN1 : (0:ℚ) < (N:ℚ) - 1 := by
    have : (2:ℚ) ≤ N := by exact_mod_cast hN
    linarith
  have hs : (stop - start) / ((N : ℚ) - 1) ≠ 0 :=
    div_ne_zero (sub_ne_zero.mpr (Ne.symm hne)) hN1.ne'
  obtain ⟨sw, e, h1, h2⟩ := C01_sweep_exact start stop _ hs
  refine ⟨sw, e, ?_, ?_⟩
  · unfold sweepN
    rw [if_neg (by omega)]
    push_cast
    exact h1
  · have hfl : ⌊|stop - start| / |(stop - start) / ((N : ℚ) - 1)|⌋₊ + 1 = N := by
      rw [abs_div, abs_of_pos hN1, div_div_eq_mul_div, mul_div_cancel_left₀]
      · have : (N:ℚ) - 1 = ((N - 1 : ℕ) : ℚ) := by rw [Nat.cast_sub (by omega)]; simp
        rw [this, Nat.floor_natCast]; omega
      · exact abs_ne_zero.mpr (sub_ne_zero.mpr (Ne.symm hne))
    rw [hfl] at h2
    have hd : linFirst start stop ((stop - start) / ((N : ℚ) - 1)) = start ∧
        linDelta start stop ((stop - start) / ((N : ℚ) - 1)) = (stop - start) / ((N : ℚ) - 1) := by
      rcases lt_or_gt_of_ne hne with h | h
      · have : 0 < (stop - start) / ((N : ℚ) - 1) := div_pos (by linarith) hN1
        simp [linFirst, linDelta, linLast, not_lt.mpr this.le, h, abs_of_pos this]
      · have : (stop - start) / ((N : ℚ) - 1) < 0 := div_neg_of_neg_of_pos (by linarith) hN1
        simp [linFirst, linDelta, linLast, not_lt.mpr h.le, h, abs_of_neg this]
    rw [hd.1, hd.2] at h2
    exact h2

/-- C02, observable form: `N` points, the first is `start`, the last is `stop`. -/
theorem C02_sweep_n_count_and_ends (start stop : ℚ) (N : ℕ) (hN : 2 ≤ N) (hne : start ≠ stop)
    (sw : Lin) (hsw : sweepN start stop N = some sw) (xs : List ℚ) (e : Lin)
    (h : Drains Lin.next sw xs e) :
    xs.length = N ∧ xs.head? = some start ∧ xs.getLast? = some stop := by
  obtain ⟨sw', e', h1, h2⟩ := C02_sweep_n_points start stop N hN hne
  rw [hsw] at h1; cases h1
  obtain ⟨rfl, _⟩ := h.deterministic h2
  have hN1 : (N:ℚ) - 1 ≠ 0 := by
    have : (2:ℚ) ≤ N := by exact_mod_cast hN
    intro h; linarith
  refine ⟨by simp, ?_, ?_⟩
  · obtain ⟨m, rfl⟩ : ∃ m, N = m + 1 := ⟨N - 1, by omega⟩
    rw [List.range_succ_eq_map]; simp
  · obtain ⟨m, rfl⟩ : ∃ m, N = m + 1 := ⟨N - 1, by omega⟩
    rw [List.range_succ, List.map_append]
    simp only [List.map_cons, List.map_nil, List.getLast?_append, List.getLast?_singleton,
      Option.some_or, Option.some.injEq]
    push_cast at hN1 ⊢
    field_simp
    ring

/-- C02, rejected inputs: exactly `N = 1` (division by zero) and `start = stop` (zero step). -/
theorem C02_sweep_n_rejects (start stop : ℚ) (N : ℤ) :
    sweepN start stop N = none ↔ N = 1 ∨ start = stop := by
  unfold sweepN
  by_cases h : N - 1 = 0
  · simp [h]; left; omega
  · rw [if_neg h, C01_sweep_rejects_zero_step, div_eq_zero_iff]
    have h1 : ((N - 1 : ℤ) : ℚ) ≠ 0 := by exact_mod_cast h
    constructor
    · rintro (h2 | h2)
      · right; linarith
      · exact absurd h2 h1
    · rintro (h2 | h2)
      · omega
      · left; linarith

/-- Finding: `sweep_n(start, stop, 0)` does not yield 0 points but both ends. -/
theorem C02_zero_points_yields_two :
    ∃ sw e, sweepN 0 1 0 = some sw ∧ Drains Lin.next sw [1, 0] e := by
  refine ⟨⟨1, 0, -1, 0, false⟩, ⟨1, 0, -1, 3, true⟩, by norm_num [sweepN, Lin.new], ?_⟩
  refine Drains.yield (s1 := ⟨1, 0, -1, 1, false⟩) (by norm_num [Lin.next]) ?_
  refine Drains.yield (s1 := ⟨1, 0, -1, 2, false⟩) (by norm_num [Lin.next]) ?_
  exact Drains.stop (by norm_num [Lin.next])

example : ∃ sw, sweepN (3/10) (11/10) 5 = some sw :=
  let ⟨sw, _, h, _⟩ := C02_sweep_n_points (3/10) (11/10) 5 (by norm_num) (by norm_num); ⟨sw, h⟩

/-! ### C03 – sweep_log -/

/-- Where a logarithmic sweep starts: a ratio below one with `start < stop` means counting down from `stop`. -/
def logFirst (start stop step : ℚ) : ℚ := if start < stop ∧ step < 1 then stop else start
def logLast (start stop step : ℚ) : ℚ := if start < stop ∧ step < 1 then start else stop
/-- The ratio between successive values: oriented from `first` towards `last`. -/
def logRatio (start stop step : ℚ) : ℚ := if stop < start ∧ 1 < step then 1 / step else step

/-- C03 (positive, different bounds): the sweep terminates and yields `first * ratio^k`
precisely for those `k` for which this value lies in the closed interval `[min, max]` of the bounds.
For `start = stop` see `C03_equal_bounds_yield_nothing`, for other bounds `C03_ends_iff`. -/
theorem C03_sweep_log_exact (start stop step : ℚ) (hs : 0 < start) (he : 0 < stop)
    (hne : start ≠ stop) (hr : 0 < step) (hr1 : step ≠ 1) :
    ∃ sw e n, Log.new start (some stop) step = some sw ∧
      Drains Log.next sw ((List.range n).map
        fun k : ℕ => logFirst start stop step * logRatio start stop step ^ k) e ∧
      ∀ k : ℕ, k < n ↔
        min start stop ≤ logFirst start stop step * logRatio start stop step ^ k ∧
        logFirst start stop step * logRatio start stop step ^ k ≤ max start stop := by
  -- generic fact for an upward and a downward geometric progression
  have up : ∀ a b r : ℚ, 0 < a → a < b → 1 < r → ∃ n : ℕ, ∀ k : ℕ, k < n ↔ a * r ^ k ≤ b := by
    intro a b r ha hab hr
    have hex : ∃ n : ℕ, b < a * r ^ n := by
      obtain ⟨n, hn⟩ := pow_unbounded_of_one_lt (b / a) hr
      exact ⟨n, by rwa [div_lt_iff₀ ha, mul_comm] at hn⟩
    classical
    refine ⟨Nat.find hex, fun k => ⟨fun hk => not_lt.mp (Nat.find_min hex hk), fun hk => ?_⟩⟩
    by_contra hcon
    have h1 : r ^ Nat.find hex ≤ r ^ k := pow_le_pow_right₀ hr.le (not_lt.mp hcon)
    have h2 := Nat.find_spec hex
    have h3 : a * r ^ Nat.find hex ≤ a * r ^ k := mul_le_mul_of_nonneg_left h1 ha.le
    linarith
  have down : ∀ a b r : ℚ, 0 < b → b < a → 0 < r → r < 1 → ∃ n : ℕ, ∀ k : ℕ, k < n ↔ b ≤ a * r ^ k := by
    intro a b r hb hba hr0 hr
    have ha : 0 < a := lt_trans hb hba
    have hex : ∃ n : ℕ, a * r ^ n < b := by
      obtain ⟨n, hn⟩ := exists_pow_lt_of_lt_one (show 0 < b / a from div_pos hb ha) hr
      exact ⟨n, by rwa [lt_div_iff₀ ha, mul_comm] at hn⟩
    classical
    refine ⟨Nat.find hex, fun k => ⟨fun hk => not_lt.mp (Nat.find_min hex hk), fun hk => ?_⟩⟩
    by_contra hcon
    have h1 : r ^ k ≤ r ^ Nat.find hex := pow_le_pow_of_le_one hr0.le hr.le (not_lt.mp hcon)
    have h2 := Nat.find_spec hex
    have h3 : a * r ^ k ≤ a * r ^ Nat.find hex := mul_le_mul_of_nonneg_left h1 ha.le
    linarith
  have ge1 : ∀ (r : ℚ) (k : ℕ), 1 < r → 1 ≤ r ^ k := fun r k h => one_le_pow₀ h.le
  have le1 : ∀ (r : ℚ) (k : ℕ), 0 < r → r < 1 → r ^ k ≤ 1 := fun r k h0 h => pow_le_one₀ h0.le h.le
  have hok : ¬ ¬ (step ≠ 1 ∧ step > 0) := not_not.mpr ⟨hr1, hr⟩
  rcases lt_or_gt_of_ne hne with hlt | hgt
  · rw [min_eq_left hlt.le, max_eq_right hlt.le]
    rcases lt_or_gt_of_ne hr1 with hs1 | hs1
    · -- start < stop, step < 1 : swapped, downwards
      have e1 : logFirst start stop step = stop := by simp [logFirst, hlt, hs1]
      have e2 : logRatio start stop step = step := by simp [logRatio, not_lt.mpr hlt.le]
      rw [e1, e2]
      obtain ⟨n, hn⟩ := down stop start step hs hlt hr hs1
      obtain ⟨e, hd⟩ := log_drains ⟨stop, start, step, stop, false⟩ n rfl
        (fun i hi => Or.inr ⟨hlt, (hn i).mp hi⟩)
        (by rintro (⟨h, _⟩ | ⟨_, h⟩)
            · exact absurd h (not_lt.mpr hlt.le)
            · exact absurd ((hn n).mpr h) (lt_irrefl n))
      refine ⟨_, e, n, ?_, hd, fun k => ?_⟩
      · unfold Log.new; simp only; rw [if_neg hok, if_pos ⟨hlt, hs1⟩]
      · rw [hn k]
        have := mul_le_mul_of_nonneg_left (le1 step k hr hs1) he.le
        constructor
        · intro h; exact ⟨h, by linarith⟩
        · exact fun h => h.1
    · have e1 : logFirst start stop step = start := by simp [logFirst, not_lt.mpr hs1.le]
      have e2 : logRatio start stop step = step := by simp [logRatio, not_lt.mpr hlt.le]
      rw [e1, e2]
      obtain ⟨n, hn⟩ := up start stop step hs hlt hs1
      obtain ⟨e, hd⟩ := log_drains ⟨start, stop, step, start, false⟩ n rfl
        (fun i hi => Or.inl ⟨hlt, (hn i).mp hi⟩)
        (by rintro (⟨_, h⟩ | ⟨h, _⟩)
            · exact absurd ((hn n).mpr h) (lt_irrefl n)
            · exact absurd h (not_lt.mpr hlt.le))
      refine ⟨_, e, n, ?_, hd, fun k => ?_⟩
      · unfold Log.new; simp only
        rw [if_neg hok, if_neg (by rintro ⟨_, h⟩; exact absurd h (not_lt.mpr hs1.le)),
          if_neg (by rintro ⟨h, _⟩; exact absurd h (not_lt.mpr hlt.le))]
      · rw [hn k]
        have := mul_le_mul_of_nonneg_left (ge1 step k hs1) hs.le
        constructor
        · intro h; exact ⟨by linarith, h⟩
        · exact fun h => h.2
  · rw [min_eq_right hgt.le, max_eq_left hgt.le]
    have e1 : logFirst start stop step = start := by simp [logFirst, not_lt.mpr hgt.le]
    rcases lt_or_gt_of_ne hr1 with hs1 | hs1
    · have e2 : logRatio start stop step = step := by simp [logRatio, not_lt.mpr hs1.le]
      rw [e1, e2]
      obtain ⟨n, hn⟩ := down start stop step he hgt hr hs1
      obtain ⟨e, hd⟩ := log_drains ⟨start, stop, step, start, false⟩ n rfl
        (fun i hi => Or.inr ⟨hgt, (hn i).mp hi⟩)
        (by rintro (⟨h, _⟩ | ⟨_, h⟩)
            · exact absurd h (not_lt.mpr hgt.le)
            · exact absurd ((hn n).mpr h) (lt_irrefl n))
      refine ⟨_, e, n, ?_, hd, fun k => ?_⟩
      · unfold Log.new; simp only
        rw [if_neg hok, if_neg (by rintro ⟨h, _⟩; exact absurd h (not_lt.mpr hgt.le)),
          if_neg (by rintro ⟨_, h⟩; exact absurd h (not_lt.mpr hs1.le))]
      · rw [hn k]
        have := mul_le_mul_of_nonneg_left (le1 step k hr hs1) hs.le
        constructor
        · intro h; exact ⟨h, by linarith⟩
        · exact fun h => h.1
    · have e2 : logRatio start stop step = 1 / step := by simp [logRatio, hgt, hs1]
      have hr0' : 0 < 1 / step := by positivity
      have hr1' : 1 / step < 1 := by rw [div_lt_one hr]; exact hs1
      rw [e1, e2]
      obtain ⟨n, hn⟩ := down start stop (1/step) he hgt hr0' hr1'
      obtain ⟨e, hd⟩ := log_drains ⟨start, stop, 1/step, start, false⟩ n rfl
        (fun i hi => Or.inr ⟨hgt, (hn i).mp hi⟩)
        (by rintro (⟨h, _⟩ | ⟨_, h⟩)
            · exact absurd h (not_lt.mpr hgt.le)
            · exact absurd ((hn n).mpr h) (lt_irrefl n))
      refine ⟨_, e, n, ?_, hd, fun k => ?_⟩
      · unfold Log.new; simp only
        rw [if_neg hok, if_neg (by rintro ⟨h, _⟩; exact absurd h (not_lt.mpr hgt.le)),
          if_pos ⟨hgt, hs1⟩]
      · rw [hn k]
        have := mul_le_mul_of_nonneg_left (le1 (1/step) k hr0' hr1') hs.le
        constructor
        · intro h; exact ⟨h, by linarith⟩
        · exact fun h => h.1

/-- C03 counter-example to the full claim: with `start = stop` the (one point) grid is missed entirely. -/
theorem C03_equal_bounds_yield_nothing (a step : ℚ) (hr : 0 < step) (hr1 : step ≠ 1) :
    ∃ sw e, Log.new a (some a) step = some sw ∧ Drains Log.next sw [] e := by
  refine ⟨⟨a, a, step, a, false⟩, ⟨a, a, step, a * step, true⟩, ?_, Drains.stop ?_⟩
  · unfold Log.new; simp [hr1, hr]
  · simp [Log.next]

/-- C03 counter-example to termination: an upward log sweep starting at zero or below never stops. -/
theorem C03_nonpositive_start_diverges (start stop step : ℚ) (hs : start ≤ 0) (he : 0 < stop)
    (hr : 1 < step) :
    ∃ sw, Log.new start (some stop) step = some sw ∧ Diverges Log.next sw := by
  have hlt : start < stop := by linarith
  refine ⟨⟨start, stop, step, start, false⟩, ?_, ?_⟩
  · unfold Log.new
    simp only
    rw [if_neg (not_not.mpr ⟨hr.ne', by linarith⟩),
      if_neg (by rintro ⟨_, h⟩; linarith), if_neg (by rintro ⟨h, _⟩; linarith)]
  · apply diverges_of_inv (I := fun s => s.start = start ∧ s.stop = stop ∧ s.step = step ∧ s.val ≤ 0)
    · rintro ⟨a, b, c, v, f⟩ ⟨h1, h2, h3, h4⟩
      dsimp only at h1 h2 h3 h4
      subst h1 h2 h3
      refine ⟨v, ⟨a, b, c, v * c, f⟩, ?_, rfl, rfl, rfl, ?_⟩
      · simp only [Log.next]; rw [if_pos (Or.inl ⟨hlt, by linarith⟩)]
      · exact mul_nonpos_of_nonpos_of_nonneg h4 (by linarith)
    · exact ⟨rfl, rfl, rfl, hs⟩

/-- C03: with different bounds the iteration ends exactly when both bounds are positive. -/
theorem C03_ends_iff (start stop step : ℚ) (hne : start ≠ stop) (hr : 0 < step) (hr1 : step ≠ 1) :
    ∃ sw, Log.new start (some stop) step = some sw ∧
      ((∃ xs e, Drains Log.next sw xs e) ↔ 0 < start ∧ 0 < stop) := by
  by_cases hpos : 0 < start ∧ 0 < stop
  · obtain ⟨sw, e, n, h1, h2, _⟩ := C03_sweep_log_exact start stop step hpos.1 hpos.2 hne hr hr1
    exact ⟨sw, h1, fun _ => hpos, fun _ => ⟨_, e, h2⟩⟩
  -- upward from S ≤ 0, downward to E ≤ 0: the bound is never passed
  have up : ∀ S E r : ℚ, S < E → S ≤ 0 → 1 < r → Diverges Log.next ⟨S, E, r, S, false⟩ := by
    intro S E r hlt hS hr
    apply diverges_of_inv (I := fun s => s.start = S ∧ s.stop = E ∧ s.step = r ∧ s.val ≤ S)
    · rintro ⟨a, b, c, v, f⟩ ⟨h1, h2, h3, h4⟩
      dsimp only at h1 h2 h3 h4
      subst h1 h2 h3
      refine ⟨v, ⟨a, b, c, v * c, f⟩, ?_, rfl, rfl, rfl, ?_⟩
      · simp only [Log.next]; rw [if_pos (Or.inl ⟨hlt, by linarith⟩)]
      · show v * c ≤ a
        nlinarith
    · exact ⟨rfl, rfl, rfl, le_refl _⟩
  have down : ∀ S E r : ℚ, E < S → E ≤ 0 → 0 < r → r < 1 → Diverges Log.next ⟨S, E, r, S, false⟩ := by
    intro S E r hlt hE hr0 hr
    apply diverges_of_inv (I := fun s => s.start = S ∧ s.stop = E ∧ s.step = r ∧ E ≤ s.val)
    · rintro ⟨a, b, c, v, f⟩ ⟨h1, h2, h3, h4⟩
      dsimp only at h1 h2 h3 h4
      subst h1 h2 h3
      refine ⟨v, ⟨a, b, c, v * c, f⟩, ?_, rfl, rfl, rfl, ?_⟩
      · simp only [Log.next]; rw [if_pos (Or.inr ⟨hlt, h4⟩)]
      · show b ≤ v * c
        nlinarith
    · exact ⟨rfl, rfl, rfl, hlt.le⟩
  have hok : ¬ ¬ (step ≠ 1 ∧ step > 0) := not_not.mpr ⟨hr1, hr⟩
  rcases lt_or_gt_of_ne hne with hlt | hgt
  · have hS : start ≤ 0 := by
      by_contra h; rw [not_le] at h; exact hpos ⟨h, by linarith⟩
    rcases lt_or_gt_of_ne hr1 with hs1 | hs1
    · refine ⟨⟨stop, start, step, stop, false⟩, ?_, fun h => absurd h (down stop start step hlt hS hr hs1),
        fun h => absurd h hpos⟩
      unfold Log.new; simp only
      rw [if_neg hok, if_pos ⟨hlt, hs1⟩]
    · refine ⟨⟨start, stop, step, start, false⟩, ?_, fun h => absurd h (up start stop step hlt hS hs1),
        fun h => absurd h hpos⟩
      unfold Log.new; simp only
      rw [if_neg hok, if_neg (by rintro ⟨_, h⟩; linarith), if_neg (by rintro ⟨h, _⟩; linarith)]
  · have hE : stop ≤ 0 := by
      by_contra h; rw [not_le] at h; exact hpos ⟨by linarith, h⟩
    rcases lt_or_gt_of_ne hr1 with hs1 | hs1
    · refine ⟨⟨start, stop, step, start, false⟩, ?_, fun h => absurd h (down start stop step hgt hE hr hs1),
        fun h => absurd h hpos⟩
      unfold Log.new; simp only
      rw [if_neg hok, if_neg (by rintro ⟨h, _⟩; linarith), if_neg (by rintro ⟨_, h⟩; linarith)]
    · refine ⟨⟨start, stop, 1 / step, start, false⟩, ?_,
        fun h => absurd h (down start stop (1 / step) hgt hE (by positivity) (by rw [div_lt_one hr]; exact hs1)),
        fun h => absurd h hpos⟩
      unfold Log.new; simp only
      rw [if_neg hok, if_neg (by rintro ⟨h, _⟩; linarith), if_pos ⟨hgt, hs1⟩]

/-- C03: `sweep_log(x, step=r)` starts at 1; ratio 1 or a non-positive ratio is rejected. -/
theorem C03_sweep_log_one_argument (x step : ℚ) : Log.new x none step = Log.new 1 (some x) step := rfl

theorem C03_sweep_log_rejects (start : ℚ) (stop : Option ℚ) (step : ℚ) :
    Log.new start stop step = none ↔ step = 1 ∨ step ≤ 0 := by
  unfold Log.new
  cases stop <;> (simp only; split_ifs <;> simp_all [not_lt] )
  all_goals (by_cases h : step = 1 <;> simp_all)

/-- C03: re-iterating a sweep_log restarts from the first value. -/
theorem C03_sweep_log_restart (start : ℚ) (stop : Option ℚ) (step : ℚ) (sw : Log)
    (hnew : Log.new start stop step = some sw) (m : ℕ) (xs : List ℚ) (e : Log) :
    Drains Log.next sw xs e ↔ Drains Log.next ((fun s => (Log.next s).2)^[m] sw).iter xs e := by
  have h1 : ∀ (m : ℕ) (s : Log), ((fun s => (Log.next s).2)^[m] s).iter = s.iter := by
    intro m
    induction m with
    | zero => intro s; rfl
    | succ m ih =>
      intro s
      rw [Function.iterate_succ_apply, ih]
      simp only [Log.next]; split <;> rfl
  have h2 : sw.iter = sw := by
    unfold Log.new at hnew
    simp only at hnew
    split_ifs at hnew <;> simp at hnew <;> subst hnew <;> rfl
  rw [h1, h2]

/-- non-vacuity: sweep_log(1000, 1, 2) is admissible and not empty: 1000 and 500 are in it. -/
example : ∃ n : ℕ, 1 < n ∧ ∃ sw e, Log.new 1000 (some 1) 2 = some sw ∧
    Drains Log.next sw ((List.range n).map fun k : ℕ => logFirst 1000 1 2 * logRatio 1000 1 2 ^ k) e := by
  obtain ⟨sw, e, n, h1, h2, h3⟩ := C03_sweep_log_exact 1000 1 2 (by norm_num) (by norm_num)
    (by norm_num) (by norm_num) (by norm_num)
  refine ⟨n, (h3 1).mpr ?_, sw, e, h1, h2⟩
  norm_num [logFirst, logRatio]

/-! ### C04 – sweep_log_n -/

/-- C04: `sweep_log_n` yields exactly `N` points `start * ratio^k`; in particular the first is `start`,
and if the computed ratio satisfies `ratio^(N-1) = stop/start` (exact arithmetic) the last is `stop`. -/
theorem C04_sweep_log_n_points (start stop : ℚ) (N : ℕ) (ratio : ℚ) (sw : LogN)
    (hnew : LogN.new start stop N ratio = some sw) :
    ∃ e, Drains LogN.next sw ((List.range N).map fun k : ℕ => start * ratio ^ k) e := by
  unfold LogN.new at hnew
  split_ifs at hnew
  simp at hnew
  subst hnew
  obtain ⟨e, he⟩ := logN_drains ⟨start, N, ratio, 0, false⟩ rfl
  exact ⟨e, by simpa using he⟩

theorem C04_sweep_log_n_count_and_ends (start stop : ℚ) (N : ℕ) (hN : 1 ≤ N) (ratio : ℚ) (sw : LogN)
    (hnew : LogN.new start stop N ratio = some sw) (hratio : ratio ^ (N - 1) = stop / start)
    (xs : List ℚ) (e : LogN) (h : Drains LogN.next sw xs e) :
    xs.length = N ∧ xs.head? = some start ∧ xs.getLast? = some stop := by
  obtain ⟨e', h2⟩ := C04_sweep_log_n_points start stop N ratio sw hnew
  obtain ⟨rfl, _⟩ := h.deterministic h2
  have hs : start ≠ 0 := by
    intro h0; unfold LogN.new at hnew; rw [if_pos (Or.inl h0)] at hnew; cases hnew
  obtain ⟨m, rfl⟩ : ∃ m, N = m + 1 := ⟨N - 1, by omega⟩
  refine ⟨by simp, ?_, ?_⟩
  · rw [List.range_succ_eq_map]; simp
  · rw [List.range_succ, List.map_append]
    simp only [List.map_cons, List.map_nil, List.getLast?_append, List.getLast?_singleton,
      Option.some_or, Option.some.injEq]
    simp only [Nat.add_sub_cancel] at hratio
    rw [hratio, mul_div_cancel₀]
    exact hs

/-- C04: restart. -/
theorem C04_sweep_log_n_restart (start stop : ℚ) (N : ℤ) (ratio : ℚ) (sw : LogN)
    (hnew : LogN.new start stop N ratio = some sw) (m : ℕ) (xs : List ℚ) (e : LogN) :
    Drains LogN.next sw xs e ↔ Drains LogN.next ((fun s => (LogN.next s).2)^[m] sw).iter xs e := by
  have h1 : ∀ (m : ℕ) (s : LogN), ((fun s => (LogN.next s).2)^[m] s).iter = s.iter := by
    intro m
    induction m with
    | zero => intro s; rfl
    | succ m ih =>
      intro s
      rw [Function.iterate_succ_apply, ih]
      simp only [LogN.next]; split <;> rfl
  have h2 : sw.iter = sw := by
    unfold LogN.new at hnew
    split_ifs at hnew
    simp at hnew; subst hnew; rfl
  rw [h1, h2]

/-- non-vacuity: 1 → 16 in 5 points, ratio 2. -/
example : ∃ sw, LogN.new 1 16 5 2 = some sw ∧ (2:ℚ) ^ (5 - 1) = 16 / 1 :=
  ⟨⟨1, 5, 2, 0, false⟩, by norm_num [LogN.new], by norm_num⟩

end Props.Sweep
