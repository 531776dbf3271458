import Verif.Model.RunInfo
import Verif.Lemmas.PyStr
import Mathlib.Tactic.Linarith
import Mathlib.Tactic.Ring
import Mathlib.Tactic.NormNum
import Mathlib.Data.List.Nodup
/-
C99: what a runner reports of its runs.
-/
namespace Props.RunInfo
open Model.RunInfo
open Model.PyStr (showNat)
abbrev Str := List Char

/-! ### Durations -/

theorem zeros_digits (w n : Nat) : ∀ c ∈ zeros w n, c.isDigit = true := by
  intro c hc
  unfold zeros at hc
  rcases List.mem_append.mp hc with h | h
  · rw [(List.mem_replicate.mp h).2]; decide
  · exact Lemmas.PyStr.showNat_digits n c h

theorem parse_zeros (k : Nat) (l : Str) : Nat.ofDigitChars 10 (List.replicate k '0' ++ l) 0 = Nat.ofDigitChars 10 l 0 := by
  induction k with
  | zero => simp
  | succ k ih => rw [List.replicate_succ, List.cons_append, Nat.ofDigitChars_cons]; exact ih

/-- A number filled up with zeros determines the number. -/
theorem zeros_inj (w a b : Nat) (h : zeros w a = zeros w b) : a = b := by
  have h1 := congrArg (fun l => Nat.ofDigitChars 10 l 0) h
  simp only [zeros, parse_zeros, showNat, Nat.ofDigitChars_ten_toDigits] at h1
  exact h1

theorem not_digit {c : Char} (hc : c.isDigit = false) (w n : Nat) : c ∉ zeros w n := by
  intro h
  rw [zeros_digits w n c h] at hc
  cases hc

theorem cut (c : Char) : ∀ (a b x y : Str), c ∉ a → c ∉ b → a ++ c :: x = b ++ c :: y → a = b ∧ x = y := by
  intro a
  induction a with
  | nil =>
    intro b x y _ hb h
    cases b with
    | nil => injection h with _ h; exact ⟨rfl, h⟩
    | cons d b => injection h with h1 _; subst h1; simp at hb
  | cons e a ih =>
    intro b x y ha hb h
    cases b with
    | nil => injection h with h1 _; subst h1; simp at ha
    | cons d b =>
      injection h with h1 h2
      subst h1
      obtain ⟨h3, h4⟩ := ih b x y (by intro z; exact ha (by simp [z])) (by intro z; exact hb (by simp [z])) h2
      exact ⟨by rw [h3], h4⟩

/-- Specification: hours, minutes, seconds and thousandths as they are shown. -/
def shown (h m s ms : Nat) : Str :=
  if h = 0 then
    if m = 0 then zeros 2 s ++ '.' :: (zeros 4 ms ++ " secs".toList)
    else zeros 2 m ++ ':' :: (zeros 2 s ++ '.' :: zeros 4 ms)
  else zeros 2 h ++ ':' :: (zeros 2 m ++ ':' :: (zeros 2 s ++ '.' :: zeros 4 ms))

/-- C99: a duration is shown with its hours, minutes and seconds (hours, or hours and minutes, left out if they are zero) and its whole milliseconds. -/
theorem C99_duration (t : ℚ) (h m s ms : Nat) (hm : m < 60) (hs : s < 60) (hms : ms < 1000)
    (h1 : (h * 3600 + m * 60 + s : ℚ) + ms / 1000 ≤ t) (h2 : t < (h * 3600 + m * 60 + s : ℚ) + (ms + 1) / 1000) : duration t = shown h m s ms := by
  have hq : (ms : ℚ) + 1 ≤ 1000 := by exact_mod_cast hms
  have hp : (0 : ℚ) ≤ ms := by exact_mod_cast Nat.zero_le ms
  have e1 : ⌊t⌋ = ((h * 3600 + m * 60 + s : Nat) : ℤ) := by
    rw [Int.floor_eq_iff]
    push_cast
    constructor
    · have : (0 : ℚ) ≤ ms / 1000 := by positivity
      linarith
    · have : (ms + 1 : ℚ) / 1000 ≤ 1 := by rw [div_le_one (by norm_num)]; exact hq
      linarith
  have e2 : ⌊t⌋.toNat = h * 3600 + m * 60 + s := by rw [e1]; exact Int.toNat_natCast _
  have e3 : ⌊(t - (⌊t⌋.toNat : ℚ)) * 1000⌋.toNat = ms := by
    rw [e2]
    have : ⌊(t - ((h * 3600 + m * 60 + s : Nat) : ℚ)) * 1000⌋ = (ms : ℤ) := by
      rw [Int.floor_eq_iff]
      push_cast
      constructor
      · linarith
      · linarith
    rw [this]; exact Int.toNat_natCast _
  unfold duration
  simp only
  rw [e3, e2]
  have d1 : (h * 3600 + m * 60 + s) / 3600 = h := by omega
  have d2 : (h * 3600 + m * 60 + s) % 3600 / 60 = m := by omega
  have d3 : (h * 3600 + m * 60 + s) % 3600 % 60 = s := by omega
  rw [d1, d2, d3]
  rfl

theorem shown_inj (h m s ms h' m' s' ms' : Nat) (e : shown h m s ms = shown h' m' s' ms') : h = h' ∧ m = m' ∧ s = s' ∧ ms = ms' := by
  have nc : ∀ w n, ':' ∉ zeros w n := not_digit (by decide)
  have nd : ∀ w n, '.' ∉ zeros w n := not_digit (by decide)
  have nsp : ∀ w n, ' ' ∉ zeros w n := not_digit (by decide)
  have tail : ∀ a b c d : Nat, zeros 2 a ++ '.' :: zeros 4 b = zeros 2 c ++ '.' :: zeros 4 d → a = c ∧ b = d := by
    intro a b c d e
    obtain ⟨e1, e2⟩ := cut '.' _ _ _ _ (nd _ _) (nd _ _) e
    exact ⟨zeros_inj _ _ _ e1, zeros_inj _ _ _ e2⟩
  have mid : ∀ a b c d f g : Nat, zeros 2 a ++ ':' :: (zeros 2 b ++ '.' :: zeros 4 c) = zeros 2 d ++ ':' :: (zeros 2 f ++ '.' :: zeros 4 g) → a = d ∧ b = f ∧ c = g := by
    intro a b c d f g e
    obtain ⟨e1, e2⟩ := cut ':' _ _ _ _ (nc _ _) (nc _ _) e
    exact ⟨zeros_inj _ _ _ e1, tail _ _ _ _ e2⟩
  have ncs : ':' ∉ " secs".toList := by decide
  have short : ∀ a b : Nat, ':' ∉ zeros 2 a ++ '.' :: (zeros 4 b ++ " secs".toList) := by
    intro a b
    simp only [List.mem_append, List.mem_cons, not_or]
    exact ⟨nc _ _, by decide, nc _ _, ncs⟩
  have short2 : ∀ a b : Nat, ':' ∉ zeros 2 a ++ '.' :: zeros 4 b := by
    intro a b
    simp only [List.mem_append, List.mem_cons, not_or]
    exact ⟨nc _ _, by decide, nc _ _⟩
  unfold shown at e
  by_cases h0 : h = 0
  · rw [if_pos h0] at e
    by_cases h0' : h' = 0
    · rw [if_pos h0'] at e
      by_cases m0 : m = 0
      · rw [if_pos m0] at e
        by_cases m0' : m' = 0
        · rw [if_pos m0'] at e
          obtain ⟨e1, e2⟩ := cut '.' _ _ _ _ (nd _ _) (nd _ _) e
          exact ⟨by omega, by omega, zeros_inj _ _ _ e1, zeros_inj _ _ _ (List.append_cancel_right e2)⟩
        · rw [if_neg m0'] at e
          exact absurd (by rw [e]; simp) (short s ms)
      · rw [if_neg m0] at e
        by_cases m0' : m' = 0
        · rw [if_pos m0'] at e
          exact absurd (by rw [← e]; simp) (short s' ms')
        · rw [if_neg m0'] at e
          obtain ⟨e1, e2, e3⟩ := mid _ _ _ _ _ _ e
          exact ⟨by omega, e1, e2, e3⟩
    · rw [if_neg h0'] at e
      by_cases m0 : m = 0
      · rw [if_pos m0] at e
        exact absurd (by rw [e]; simp) (short s ms)
      · rw [if_neg m0] at e
        obtain ⟨_, e2⟩ := cut ':' _ _ _ _ (nc _ _) (nc _ _) e
        exact absurd (by rw [e2]; simp) (short2 s ms)
  · rw [if_neg h0] at e
    by_cases h0' : h' = 0
    · rw [if_pos h0'] at e
      by_cases m0 : m' = 0
      · rw [if_pos m0] at e
        exact absurd (by rw [← e]; simp) (short s' ms')
      · rw [if_neg m0] at e
        obtain ⟨_, e2⟩ := cut ':' _ _ _ _ (nc _ _) (nc _ _) e
        exact absurd (by rw [← e2]; simp) (short2 s' ms')
    · rw [if_neg h0'] at e
      obtain ⟨e1, e2⟩ := cut ':' _ _ _ _ (nc _ _) (nc _ _) e
      obtain ⟨e3, e4, e5⟩ := mid _ _ _ _ _ _ e2
      exact ⟨zeros_inj _ _ _ e1, e3, e4, e5⟩

theorem decompose (t : ℚ) (ht : 0 ≤ t) : ∃ h m s ms : Nat, m < 60 ∧ s < 60 ∧ ms < 1000 ∧
    ⌊t * 1000⌋ = ((h * 3600 + m * 60 + s) * 1000 + ms : ℤ) ∧
    (h * 3600 + m * 60 + s : ℚ) + ms / 1000 ≤ t ∧ t < (h * 3600 + m * 60 + s : ℚ) + (ms + 1) / 1000 := by
  obtain ⟨n, hn⟩ : ∃ n : Nat, ⌊t * 1000⌋ = (n : ℤ) := Int.eq_ofNat_of_zero_le (Int.floor_nonneg.mpr (by positivity))
  obtain ⟨b1, b2⟩ := Int.floor_eq_iff.mp hn
  refine ⟨n / 1000 / 3600, n / 1000 % 3600 / 60, n / 1000 % 60, n % 1000, by omega, by omega, by omega, ?_, ?_, ?_⟩
  · rw [hn]; omega
  all_goals
    have e : n = ((n / 1000 / 3600) * 3600 + (n / 1000 % 3600 / 60) * 60 + n / 1000 % 60) * 1000 + n % 1000 := by omega
    have e' : (n : ℚ) = (((n / 1000 / 3600 : Nat) : ℚ) * 3600 + ((n / 1000 % 3600 / 60 : Nat) : ℚ) * 60 + ((n / 1000 % 60 : Nat) : ℚ)) * 1000 + ((n % 1000 : Nat) : ℚ) := by
      exact_mod_cast e
    push_cast at b1 b2
    linarith

/-- C99: two durations are shown alike exactly if they have the same number of whole milliseconds. -/
theorem C99_durations_differ (t u : ℚ) (ht : 0 ≤ t) (hu : 0 ≤ u) : duration t = duration u ↔ ⌊t * 1000⌋ = ⌊u * 1000⌋ := by
  obtain ⟨h, m, s, ms, a1, a2, a3, a4, a5, a6⟩ := decompose t ht
  obtain ⟨h', m', s', ms', b1, b2, b3, b4, b5, b6⟩ := decompose u hu
  rw [C99_duration t h m s ms a1 a2 a3 a5 a6, C99_duration u h' m' s' ms' b1 b2 b3 b5 b6, a4, b4]
  constructor
  · intro e
    obtain ⟨rfl, rfl, rfl, rfl⟩ := shown_inj _ _ _ _ _ _ _ _ e
    rfl
  · intro e
    have : h = h' ∧ m = m' ∧ s = s' ∧ ms = ms' := by omega
    obtain ⟨rfl, rfl, rfl, rfl⟩ := this
    rfl

/-- C99 limit: the milliseconds are shown with four digits: one and a half seconds look like 1.05 seconds, and 1.05 seconds like 1.005. -/
theorem C99_limit_milliseconds : duration (3 / 2) = "01.0500 secs".toList ∧ duration (105 / 100) = "01.0050 secs".toList := by
  constructor
  · rw [C99_duration (3 / 2) 0 0 1 500 (by norm_num) (by norm_num) (by norm_num) (by norm_num) (by norm_num)]; decide +kernel
  · rw [C99_duration (105 / 100) 0 0 1 50 (by norm_num) (by norm_num) (by norm_num) (by norm_num) (by norm_num)]; decide +kernel

/-! ### The dictionary -/

variable {A E : Type}

theorem lookup_put {V : Type} (d : List (Nat × V)) (k : Nat) (v : V) (j : Nat) : (put d k v).lookup j = if j = k then some v else d.lookup j := by
  unfold put
  by_cases ha : d.any (fun e => e.1 == k) = true
  · rw [if_pos ha]
    induction d with
    | nil => simp at ha
    | cons e d ih =>
      obtain ⟨a, x⟩ := e
      rw [List.map_cons]
      by_cases hk : a = k
      · subst hk
        simp only [if_true]
        by_cases hj : j = a
        · subst hj; simp
        · rw [if_neg hj]
          simp only [List.lookup_cons, beq_eq_false_iff_ne.2 hj]
          by_cases ha2 : d.any (fun e => e.1 == a) = true
          · rw [ih ha2, if_neg hj]
          · have : d.map (fun e => if e.1 = a then (a, v) else e) = d := by
              conv_rhs => rw [← List.map_id d]
              apply List.map_congr_left
              intro e he
              rw [if_neg]
              · rfl
              · intro h
                apply ha2
                rw [List.any_eq_true]
                exact ⟨e, he, by simp [h]⟩
            rw [this]
      · have hd : d.any (fun e => e.1 == k) = true := by
          rw [List.any_cons] at ha
          simpa [hk] using ha
        simp only [hk, if_false]
        by_cases hj : j = a
        · subst hj
          rw [if_neg hk]; simp
        · simp only [List.lookup_cons, beq_eq_false_iff_ne.2 hj]
          exact ih hd
  · rw [if_neg ha]
    induction d with
    | nil =>
      by_cases hj : j = k
      · subst hj; simp
      · simp [List.lookup_cons, beq_eq_false_iff_ne.2 hj, hj]
    | cons e d ih =>
      obtain ⟨a, x⟩ := e
      rw [List.any_cons, Bool.or_eq_true, not_or] at ha
      have hka : a ≠ k := by simpa using ha.1
      rw [List.cons_append]
      by_cases hj : j = a
      · subst hj; rw [if_neg hka]; simp
      · simp only [List.lookup_cons, beq_eq_false_iff_ne.2 hj]
        exact ih ha.2

theorem keys_put {V : Type} (d : List (Nat × V)) (k : Nat) (v : V) : (put d k v).map Prod.fst = if k ∈ d.map Prod.fst then d.map Prod.fst else d.map Prod.fst ++ [k] := by
  unfold put
  have e : (d.any (fun e => e.1 == k) = true) ↔ k ∈ d.map Prod.fst := by
    rw [List.any_eq_true, List.mem_map]
    constructor
    · rintro ⟨x, hx, h⟩; exact ⟨x, hx, by simpa using h⟩
    · rintro ⟨x, hx, h⟩; exact ⟨x, hx, by simpa using h⟩
  by_cases h : k ∈ d.map Prod.fst
  · rw [if_pos h, if_pos (e.mpr h), List.map_map]
    apply List.map_congr_left
    intro x _
    by_cases hx : x.1 = k <;> simp [hx]
  · rw [if_neg h, if_neg (fun x => h (e.mp x)), List.map_append]
    rfl

/-- C99: with different run numbers, sim_info has one entry for every completed run, in the order of completion, and nothing else. -/
theorem C99_runs (done : List (Task A E)) (h : (done.map Task.runno).Nodup) : simInfo done = done.map (fun t => (t.runno, info t)) := by
  have main : ∀ (ts : List (Task A E)) (d : List (Nat × Info A E)), (d.map Prod.fst ++ ts.map Task.runno).Nodup →
      ts.foldl (fun rv t => put rv t.runno (info t)) d = d ++ ts.map (fun t => (t.runno, info t)) := by
    intro ts
    induction ts with
    | nil => intro d _; simp
    | cons t ts ih =>
      intro d hn
      have hk : t.runno ∉ d.map Prod.fst := by
        rw [List.nodup_append] at hn
        intro hm
        exact hn.2.2 _ hm _ (by simp) rfl
      have e : put d t.runno (info t) = d ++ [(t.runno, info t)] := by
        unfold put
        rw [if_neg]
        intro ha
        rw [List.any_eq_true] at ha
        obtain ⟨x, hx, hxe⟩ := ha
        exact hk (List.mem_map.mpr ⟨x, hx, by simpa using hxe⟩)
      rw [List.foldl_cons, e, ih]
      · simp
      · simpa using hn
  have := main done [] (by simpa using h)
  simpa [simInfo] using this

/-- C99: whatever the run numbers, the entry of a number is that of the run of this number that completed last. -/
theorem C99_last (done : List (Task A E)) (n : Nat) : (simInfo done).lookup n = (done.reverse.find? (fun t => t.runno == n)).map info := by
  have main : ∀ ts : List (Task A E), (ts.reverse.foldl (fun rv t => put rv t.runno (info t)) []).lookup n = (ts.find? (fun t => t.runno == n)).map info := by
    intro ts
    induction ts with
    | nil => rfl
    | cons t ts ih =>
      rw [List.reverse_cons, List.foldl_append, List.foldl_cons, List.foldl_nil, lookup_put, ih]
      by_cases h : n = t.runno
      · subst h; simp
      · rw [if_neg h, List.find?_cons_of_neg (by simpa using fun e => h e.symm)]
  have := main done.reverse
  rw [List.reverse_reverse] at this
  exact this

/-- C99: every entry has the eight attributes of its run; the edits are there exactly if the run had any. -/
theorem C99_entry (t : Task A E) :
    (info t).fields.map Prod.fst = ["netlist_file", "raw_file", "log_file", "retcode", "exception_text", "callback_return", "start_time", "stop_time"].map String.toList ∧
    (info t).fields.map Prod.snd = [t.netlist, t.raw, t.log, t.retcode, t.exception, t.callback, t.start, t.stop] ∧
    (∀ l, (info t).edits = some l ↔ t.edits = some l ∧ l ≠ []) := by
  refine ⟨rfl, rfl, ?_⟩
  intro l
  unfold info
  cases h : t.edits with
  | none => simp
  | some l' =>
    cases l' with
    | nil => simp
    | cons a l' =>
      simp only [Option.some.injEq]
      constructor
      · rintro rfl; exact ⟨rfl, by simp⟩
      · exact fun h => h.1

/-- C99 sample. -/
theorem C99_sample :
    (simInfo [(⟨2, 0, 1, 2, 3, 4, 5, 6, 7, some [9]⟩ : Task Nat Nat), ⟨1, 10, 11, 12, 13, 14, 15, 16, 17, some []⟩]).map (fun e => (e.1, e.2.edits)) = [(2, some [9]), (1, none)] ∧
    ([2, 1] : List Nat).Nodup ∧ shown 1 2 3 4 = "01:02:03.0004".toList ∧ shown 0 2 3 45 = "02:03.0045".toList ∧ shown 100 0 0 0 = "100:00:00.0000".toList := by
  refine ⟨?_, ?_, ?_, ?_, ?_⟩ <;> decide +kernel

end Props.RunInfo
