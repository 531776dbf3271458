import Verif.Model.FastWorst
import Mathlib.Data.List.Basic
import Mathlib.Data.Fintype.Pi
import Mathlib.Data.Fintype.Vector
import Mathlib.Data.Finset.Card
import Mathlib.Tactic.Linarith
/-
C50: the fast worst-case analysis is a sound greedy search.
-/
namespace Props.FastWorst
open Model.FastWorst

theorem settings_length (l : List ℚ) : (settings l).length = l.length - 1 := by
  induction l with
  | nil => rfl
  | cons a l ih =>
    cases l with
    | nil => rfl
    | cons b l => simp only [settings, List.length_cons, ih]; simp

theorem toggle_length (s : List Bool) (i : ℕ) : (toggle s i).length = s.length := by simp [toggle]

theorem conf_all_true (s : List Bool) (h : s.any (! ·) = false) : conf s = List.replicate s.length .max := by
  induction s with
  | nil => rfl
  | cons b s ih =>
    simp only [List.any_cons, Bool.or_eq_false_iff, Bool.not_eq_eq_eq_not, Bool.not_false] at h
    rw [h.1]
    have := ih h.2
    simp only [conf, List.map_cons, List.length_cons, List.replicate_succ] at this ⊢
    rw [this]; rfl

theorem checkMax_some (f : List Level → ℚ) (s : List Bool) (v : ℚ) (todo i : ℕ) :
    checkMax f s v todo i = some () ↔ ∀ j, i ≤ j → j < i + todo → f (conf (toggle s j)) ≤ v := by
  induction todo generalizing i with
  | zero => simp [checkMax]; intro j h1 h2; omega
  | succ t ih =>
    unfold checkMax
    by_cases h : f (conf (toggle s i)) > v
    · simp only [h, if_true]
      constructor
      · intro h'; cases h'
      · intro h'; exact absurd (h' i (le_refl _) (by omega)) (not_le.mpr h)
    · simp only [h, if_false, ih]
      constructor
      · intro h' j h1 h2
        rcases Nat.eq_or_lt_of_le h1 with rfl | h1
        · exact not_lt.mp h
        · exact h' j h1 (by omega)
      · intro h' j h1 h2; exact h' j (by omega) (by omega)

theorem checkMin_some (f : List Level → ℚ) (n fuel : ℕ) (s : List Bool) (v : ℚ) (i : ℕ) (hs : s.length = n)
    (hv : v = f (conf s)) (hprev : ∀ j < i, v ≤ f (conf (toggle s j)))
    (s' : List Bool) (v' : ℚ) (h : checkMin f n fuel s v i = some (s', v')) :
    s'.length = n ∧ v' = f (conf s') ∧ v' ≤ v ∧ ∀ j < n, v' ≤ f (conf (toggle s' j)) := by
  induction fuel generalizing s v i with
  | zero => simp [checkMin] at h
  | succ fuel ih =>
    unfold checkMin at h
    split at h
    · next hi =>
      simp only [Option.some.injEq, Prod.mk.injEq] at h
      obtain ⟨rfl, rfl⟩ := h
      exact ⟨hs, hv, le_refl _, fun j hj => hprev j (by omega)⟩
    · split at h
      · next hlt =>
        obtain ⟨h1, h2, h3, h4⟩ := ih (toggle s i) _ 0 (by rw [toggle_length]; exact hs) rfl (by simp) h
        exact ⟨h1, h2, le_trans h3 (le_of_lt hlt), h4⟩
      · next hge =>
        exact ih s v (i + 1) hs hv (by
          intro j hj
          rcases Nat.lt_or_eq_of_le (Nat.lt_succ_iff.mp hj) with h' | rfl
          · exact hprev j h'
          · exact not_lt.mp hge) h

theorem checkMin_mono (f : List Level → ℚ) (n : ℕ) (fuel d : ℕ) (s : List Bool) (v : ℚ) (i : ℕ) (r : List Bool × ℚ)
    (h : checkMin f n fuel s v i = some r) : checkMin f n (fuel + d) s v i = some r := by
  induction fuel generalizing s v i with
  | zero => simp [checkMin] at h
  | succ fuel ih =>
    rw [Nat.add_right_comm]
    unfold checkMin at h ⊢
    split at h
    · next hi => rw [if_pos hi]; exact h
    · next hi =>
      rw [if_neg hi]
      split at h
      · next hlt => rw [if_pos hlt]; exact ih _ _ _ h
      · next hge => rw [if_neg hge]; exact ih _ _ _ h

/-- The search of the minimum always ends (each restart strictly decreases the measurement over finitely many
configurations). -/
theorem checkMin_ends (f : List Level → ℚ) (n : ℕ) :
    ∀ (m : ℕ) (s : List Bool), s.length = n →
      ((Finset.univ : Finset (List.Vector Bool n)).filter (fun c => f (conf c.1) < f (conf s))).card ≤ m →
      ∀ i ≤ n, ∃ fuel r, checkMin f n fuel s (f (conf s)) i = some r := by
  intro m
  induction m using Nat.strong_induction_on with
  | _ m ihm =>
  intro s hs hm
  have : ∀ k i, i + k = n → ∃ fuel r, checkMin f n fuel s (f (conf s)) i = some r := by
    intro k
    induction k with
    | zero =>
      intro i hi
      refine ⟨1, (s, f (conf s)), ?_⟩
      unfold checkMin; rw [if_pos (by omega)]
    | succ k ih =>
      intro i hi
      by_cases hlt : f (conf (toggle s i)) < f (conf s)
      · -- restart
        have hcard : ((Finset.univ : Finset (List.Vector Bool n)).filter (fun c => f (conf c.1) < f (conf (toggle s i)))).card <
            ((Finset.univ : Finset (List.Vector Bool n)).filter (fun c => f (conf c.1) < f (conf s))).card := by
          apply Finset.card_lt_card
          rw [Finset.ssubset_iff_of_subset]
          · refine ⟨⟨toggle s i, by rw [toggle_length]; exact hs⟩, ?_, ?_⟩
            · exact Finset.mem_filter.mpr ⟨Finset.mem_univ _, hlt⟩
            · intro hc; exact absurd (Finset.mem_filter.mp hc).2 (lt_irrefl _)
          · intro c hc
            simp only [Finset.mem_filter, Finset.mem_univ, true_and] at hc ⊢
            exact lt_trans hc hlt
        obtain ⟨fuel, r, hr⟩ := ihm _ (lt_of_lt_of_le hcard hm) (toggle s i) (by rw [toggle_length]; exact hs) (le_refl _) 0 (Nat.zero_le _)
        refine ⟨fuel + 1, r, ?_⟩
        unfold checkMin
        rw [if_neg (by omega), if_pos hlt]; exact hr
      · obtain ⟨fuel, r, hr⟩ := ih (i + 1) (by omega)
        refine ⟨fuel + 1, r, ?_⟩
        unfold checkMin
        rw [if_neg (by omega), if_neg hlt]; exact hr
  intro i hi
  exact this (n - i) i (by omega)

theorem toggle_getElem (s : List Bool) (i : ℕ) : toggle s i = s.modify i (! ·) := rfl

/-- C50: whatever the measurement function, when the method returns, the reported maximum (minimum) is the
measurement of the reported configuration, in which every element is at one of its two extremes, and no change of a
single element gives a larger (smaller) measurement; the nominal value is the measurement of the nominal circuit.
Partial: the reported extremes are local, not global, and other simulated configurations can exceed them (see the
counter-example). -/
theorem C50_reported_extremes_are_local_optima (f : List Level → ℚ) (n fuel : ℕ) (r : Result)
    (h : run f n fuel = some r) :
    r.nominal = f (List.replicate n .nom) ∧
    (r.maxComp.length = n ∧ r.maxValue = f (conf r.maxComp) ∧ ∀ i < n, f (conf (toggle r.maxComp i)) ≤ r.maxValue) ∧
    (r.minComp.length = n ∧ r.minValue = f (conf r.minComp) ∧ ∀ i < n, r.minValue ≤ f (conf (toggle r.minComp i))) := by
  unfold run at h
  simp only [Option.bind_eq_bind] at h
  obtain ⟨u, hu, h⟩ := Option.bind_eq_some_iff.mp h
  obtain ⟨⟨sm, vm⟩, hmin, h⟩ := Option.bind_eq_some_iff.mp h
  simp only [Option.some.injEq] at h
  subst h
  have hlen : (settings ((cumulative n).map f)).length = n := by
    rw [settings_length]; simp [cumulative]
  obtain ⟨m1, m2, m3, m4⟩ := checkMin_some f n fuel _ _ 0 (by simp [hlen]) rfl (by simp) sm vm hmin
  refine ⟨rfl, ⟨hlen, ?_, ?_⟩, m1, m2, m4⟩
  · simp only
    split
    · rfl
    · next hany =>
      rw [conf_all_true _ (by simpa using hany), hlen]
  · intro i hi
    exact (checkMax_some f _ _ n 0).mp hu i (Nat.zero_le _) (by omega)

/-- C50: the method ends for every measurement function: it raises exactly when the first guess of the maximum is
not a local maximum (TypeError of line 242), otherwise it returns. -/
theorem C50_ends (f : List Level → ℚ) (n : ℕ) :
    (∃ fuel₀, ∀ fuel, fuel₀ ≤ fuel → (run f n fuel).isSome) ∨
    ((∀ fuel, run f n fuel = none) ∧ ∃ s : List Bool, s.length = n ∧ s = settings ((cumulative n).map f) ∧
      ∃ i < n, f (conf s) < f (conf (toggle s i))) := by
  have hlen : (settings ((cumulative n).map f)).length = n := by
    rw [settings_length]; simp [cumulative]
  generalize hms : settings ((cumulative n).map f) = ms at *
  have hmax : (if ms.any (! ·) then f (conf ms) else f (List.replicate n .max)) = f (conf ms) := by
    split
    · rfl
    · next hany => rw [conf_all_true _ (by simpa using hany), hlen]
  by_cases hok : ∀ j < n, f (conf (toggle ms j)) ≤ f (conf ms)
  · left
    obtain ⟨fuel, ⟨sm, vm⟩, hr⟩ := checkMin_ends f n _ (ms.map (! ·)) (by simp [hlen]) (le_refl _) 0 (Nat.zero_le _)
    refine ⟨fuel, ?_⟩
    intro fuel' hle
    obtain ⟨d, rfl⟩ := Nat.exists_eq_add_of_le hle
    have hr' := checkMin_mono f n fuel d _ _ _ _ hr
    unfold run
    simp only [hms, hmax, Option.bind_eq_bind]
    rw [(checkMax_some f ms _ n 0).mpr (fun j _ hj => hok j (by omega))]
    simp only [Option.bind_some, hr']
    rfl
  · right
    push Not at hok
    obtain ⟨j, hj, hlt⟩ := hok
    refine ⟨?_, ms, hlen, rfl, j, hj, hlt⟩
    intro fuel
    unfold run
    simp only [hms, hmax, Option.bind_eq_bind]
    have : checkMax f ms (f (conf ms)) n 0 = none := by
      cases hc : checkMax f ms (f (conf ms)) n 0 with
      | none => rfl
      | some u => exact absurd ((checkMax_some f ms _ n 0).mp hc j (Nat.zero_le _) (by omega)) (not_le.mpr hlt)
    rw [this]; rfl

/-- The response to each element is monotonic, whatever the levels of the others: `dir` tells for each element whether
the measurement increases (strictly) from its minimum through its nominal to its maximum value, or decreases. -/
def Monotonic (f : List Level → ℚ) (dir : List Bool) : Prop :=
  ∀ (dpre : List Bool) (b : Bool) (dpost : List Bool), dir = dpre ++ b :: dpost →
    ∀ (pre post : List Level), pre.length = dpre.length → post.length = dpost.length →
      if b then f (pre ++ .min :: post) < f (pre ++ .nom :: post) ∧ f (pre ++ .nom :: post) < f (pre ++ .max :: post)
      else f (pre ++ .max :: post) < f (pre ++ .nom :: post) ∧ f (pre ++ .nom :: post) < f (pre ++ .min :: post)

theorem mono_global (f : List Level → ℚ) (dir : List Bool) (hm : Monotonic f dir) :
    ∀ (d dpre : List Bool), dir = dpre ++ d → ∀ (pre c : List Level), pre.length = dpre.length → c.length = d.length →
      f (pre ++ c) ≤ f (pre ++ conf d) ∧ f (pre ++ conf (d.map (! ·))) ≤ f (pre ++ c) := by
  intro d
  induction d with
  | nil =>
    intro dpre _ pre c _ hc
    have : c = [] := List.length_eq_zero_iff.mp hc
    subst this; simp [conf]
  | cons b d ih =>
    intro dpre hd pre c hp hc
    cases c with
    | nil => simp at hc
    | cons l c =>
      have hc' : c.length = d.length := by simpa using hc
      have hd' : dir = (dpre ++ [b]) ++ d := by simp [hd]
      have h1 := ih (dpre ++ [b]) hd' (pre ++ [l]) c (by simp [hp]) hc'
      simp only [List.append_assoc, List.singleton_append] at h1
      have hA := hm dpre b d hd pre (conf d) hp (by simp [conf])
      have hB := hm dpre b d hd pre (conf (d.map (! ·))) hp (by simp [conf])
      constructor
      · refine le_trans h1.1 ?_
        cases b <;> cases l <;> simp only [conf, List.map_cons, level] at * <;> simp only [if_true, Bool.false_eq_true, if_false] at * <;> linarith
      · refine le_trans ?_ h1.2
        cases b <;> cases l <;> simp only [conf, List.map_cons, level, Bool.not_true, Bool.not_false] at * <;> simp only [if_true, Bool.false_eq_true, if_false] at * <;> linarith

theorem settings_mono (f : List Level → ℚ) (dir : List Bool) (hm : Monotonic f dir) :
    settings ((cumulative dir.length).map f) = dir := by
  have key : ∀ (d dpre : List Bool), dir = dpre ++ d →
      settings (((List.range (d.length + 1)).map (fun i => List.replicate (dpre.length + i) Level.max ++ List.replicate (d.length - i) .nom)).map f) = d := by
    intro d
    induction d with
    | nil => intro dpre _; rfl
    | cons b d ih =>
      intro dpre hd
      have hrec := ih (dpre ++ [b]) (by simp [hd])
      have e1 : List.range ((b :: d).length + 1) = 0 :: (List.range (d.length + 1)).map (· + 1) := by
        rw [List.length_cons, List.range_succ_eq_map]
      have e2 : List.range (d.length + 1) = 0 :: (List.range d.length).map (· + 1) := by
        rw [List.range_succ_eq_map]
      rw [e1]
      have hshift : (((List.range (d.length + 1)).map (· + 1)).map (fun i => List.replicate (dpre.length + i) Level.max ++ List.replicate ((b :: d).length - i) .nom)).map f =
          ((List.range (d.length + 1)).map (fun i => List.replicate ((dpre ++ [b]).length + i) Level.max ++ List.replicate (d.length - i) .nom)).map f := by
        rw [List.map_map, List.map_map, List.map_map]
        apply List.map_congr_left
        intro i _
        show f _ = f _
        congr 1
        simp only [Function.comp, List.length_append, List.length_cons, List.length_nil]
        congr 1
        · congr 1; omega
        · congr 1; omega
      rw [List.map_cons, List.map_cons, hshift]
      -- expose the head of the remaining list
      rw [e2] at hrec ⊢
      simp only [List.map_cons] at hrec ⊢
      rw [settings, hrec]
      congr 1
      have hA := hm dpre b d hd (List.replicate dpre.length .max) (List.replicate d.length .nom) (by simp) (by simp)
      have x1 : List.replicate (dpre.length + 0) Level.max ++ List.replicate ((b :: d).length - 0) .nom =
          List.replicate dpre.length .max ++ .nom :: List.replicate d.length .nom := by
        simp [List.replicate_succ]
      have x2 : List.replicate ((dpre ++ [b]).length + 0) Level.max ++ List.replicate (d.length - 0) .nom =
          List.replicate dpre.length .max ++ .max :: List.replicate d.length .nom := by
        simp [List.replicate_succ']
      rw [x1, x2]
      cases b
      · simp only [Bool.false_eq_true, if_false] at hA
        rw [decide_eq_false_iff_not]; linarith [hA.1]
      · simp only [if_true] at hA
        rw [decide_eq_true_iff]; linarith [hA.2]
  have := key dir [] rfl
  simpa [cumulative] using this

/-- C50: if the response to each element is monotonic (the assumption stated in the class documentation), the method
returns, and the reported maximum and minimum are the true extremes over every configuration (nominal values
included), reached at the reported component settings. -/
theorem C50_monotonic_exact (f : List Level → ℚ) (dir : List Bool) (hm : Monotonic f dir) :
    ∃ (fuel : ℕ) (r : Result), run f dir.length fuel = some r ∧ r.maxComp = dir ∧ r.minComp = dir.map (! ·) ∧
      (∀ c : List Level, c.length = dir.length → f c ≤ r.maxValue ∧ r.minValue ≤ f c) ∧
      r.maxValue = f (conf r.maxComp) ∧ r.minValue = f (conf r.minComp) := by
  have hglob : ∀ c : List Level, c.length = dir.length → f c ≤ f (conf dir) ∧ f (conf (dir.map (! ·))) ≤ f c := by
    intro c hc
    have := mono_global f dir hm dir [] rfl [] c rfl hc
    simpa using this
  have hset := settings_mono f dir hm
  have hmax : (if dir.any (! ·) then f (conf dir) else f (List.replicate dir.length .max)) = f (conf dir) := by
    split
    · rfl
    · next hany => rw [conf_all_true _ (by simpa using hany)]
  have hmin : ∀ k i, i + k = dir.length →
      checkMin f dir.length (k + 1) (dir.map (! ·)) (f (conf (dir.map (! ·)))) i =
        some (dir.map (! ·), f (conf (dir.map (! ·)))) := by
    intro k
    induction k with
    | zero => intro i hi; unfold checkMin; rw [if_pos (by omega)]
    | succ k ih =>
      intro i hi
      unfold checkMin
      rw [if_neg (by omega), if_neg, ih (i + 1) (by omega)]
      exact not_lt.mpr (hglob (conf (toggle (dir.map (! ·)) i)) (by simp [conf, toggle])).2
  refine ⟨dir.length + 1, ⟨f (List.replicate dir.length .nom), f (conf (dir.map (! ·))), dir, f (conf dir), dir.map (! ·)⟩, ?_, rfl, rfl, hglob, rfl, rfl⟩
  unfold run
  simp only [hset, hmax, Option.bind_eq_bind]
  rw [(checkMax_some f dir _ dir.length 0).mpr (fun j _ _ => (hglob _ (by simp [conf, toggle])).1)]
  simp only [Option.bind_some, hmin dir.length 0 (by omega)]

/-- A monotonic response of one element. -/
example : Monotonic (fun c => match c with | [.max] => 3 | [.nom] => 2 | _ => 1) [true] := by
  intro dpre b dpost hd pre post hp hq
  rcases dpre with _ | ⟨x, dpre⟩
  · simp only [List.nil_append, List.cons.injEq] at hd
    obtain ⟨rfl, rfl⟩ := hd
    have : pre = [] := List.length_eq_zero_iff.mp hp
    subst this
    have : post = [] := List.length_eq_zero_iff.mp hq
    subst this
    norm_num
  · simp at hd

/-- A measurement which is largest at the nominal values. -/
def fPeak : List Level → ℚ
  | [.nom] => 10
  | [.max] => 1
  | [.min] => 0
  | _ => 0

/-- C50 counter-example: the reported maximum (0, of the configuration "minimum") is smaller than the nominal value
(10) which was simulated too. Note it has fewer elements than needed to fail by monotonicity only: the response is not
monotonic. -/
theorem C50_simulated_value_exceeds_reported_maximum :
    (run (fun c => match c with | [.nom] => 10 | [.max] => 0 | _ => 1) 1 100).map (fun r => (r.nominal, r.maxValue)) =
      some (10, 1) := by decide +kernel

/-- C50 counter-example: with `fPeak` the method raises (the first guess is not a local maximum). -/
theorem C50_raises_when_guess_is_wrong (fuel : ℕ) : run fPeak 1 fuel = none := by
  have h : checkMax fPeak (settings ((cumulative 1).map fPeak)) (fPeak (conf (settings ((cumulative 1).map fPeak)))) 1 0 = none := by
    decide +kernel
  have h2 : (settings ((cumulative 1).map fPeak)).any (! ·) = true := by decide +kernel
  unfold run
  simp only [Option.bind_eq_bind, h2, if_true]
  rw [h]; rfl

/-- A monotone measurement of two elements: both extremes are found. -/
example : run (fun c => match c with
    | [a, b] => (match a with | .nom => 10 | .max => 12 | .min => 7) - (match b with | .nom => 0 | .max => 3 | .min => (-5))
    | _ => 0) 2 100 = some ⟨10, 4, [true, false], 17, [false, true]⟩ := by decide +kernel

end Props.FastWorst
