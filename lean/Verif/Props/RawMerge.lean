import Verif.Model.RawMerge
import Verif.Spec.RawMerge
import Mathlib.Algebra.Order.Field.Basic
import Mathlib.Tactic.Linarith
import Mathlib.Tactic.SplitIfs
import Mathlib.Tactic.ByContra
import Mathlib.Tactic.Push
import Mathlib.Tactic.Ring
import Mathlib.Tactic.Tauto
import Mathlib.Tactic.Abel
import Mathlib.Tactic.NormNum
import Mathlib.Data.List.TakeWhile
/-
C81: traces of several RAW files in one file.
-/
namespace Props.RawMerge
open Model.RawMerge Spec.RawMerge
abbrev Str := List Char
variable {V : Type} [AddCommGroup V] [Module ℚ V]

/-! ### Interpolation -/

theorem slopeAt_ok {ys : List V} {xs : List ℚ} {i : Nat} {sl : V} (h : slopeAt ys xs i = .ok sl) :
    ∃ x0 x1 y0 y1, xs[i - 1]? = some x0 ∧ xs[i]? = some x1 ∧ ys[i - 1]? = some y0 ∧ ys[i]? = some y1 ∧
      sl = (x1 - x0)⁻¹ • (y1 - y0) := by
  unfold slopeAt at h
  split at h
  · rename_i x0 x1 y0 y1 h0 h1 h2 h3
    injection h with h
    exact ⟨x0, x1, y0, y1, h0, h1, h2, h3, h.symm⟩
  · cases h

theorem slopeAt_some {ys : List V} {xs : List ℚ} {i : Nat} (hl : ys.length = xs.length) (hi : i < xs.length) :
    ∃ sl, slopeAt ys xs i = .ok sl := by
  unfold slopeAt
  rw [List.getElem?_eq_getElem hi, List.getElem?_eq_getElem (l := ys) (i := i) (by omega),
    List.getElem?_eq_getElem (l := xs) (i := i - 1) (by omega), List.getElem?_eq_getElem (l := ys) (i := i - 1) (by omega)]
  exact ⟨_, rfl⟩

theorem advance_spec (ys : List V) (xs : List ℚ) (t : ℚ) (hl : ys.length = xs.length) : ∀ (fuel i : Nat) (sl : V),
    xs.length < fuel + i → i < xs.length → slopeAt ys xs i = .ok sl → (∃ x ∈ xs.drop i, t ≤ x) →
    ∃ k sl', advance ys xs t fuel i sl = .ok (k, sl') ∧ i ≤ k ∧ k < xs.length ∧ slopeAt ys xs k = .ok sl' ∧
      (∀ x, xs[k]? = some x → t ≤ x) ∧ (k = i ∨ ∀ x, xs[k - 1]? = some x → x < t) := by
  intro fuel
  induction fuel with
  | zero => intro i sl h1 h2; omega
  | succ n ih =>
    intro i sl h1 h2 h3 h4
    unfold advance
    rw [List.getElem?_eq_getElem h2]
    dsimp only
    by_cases hx : xs[i] < t
    · rw [if_pos hx]
      obtain ⟨x, hxm, hxt⟩ := h4
      rw [List.drop_eq_getElem_cons h2] at hxm
      have hm : x ∈ xs.drop (i + 1) := by
        rcases List.mem_cons.mp hxm with rfl | h
        · exact absurd hx (not_lt.mpr hxt)
        · exact h
      have hi1 : i + 1 < xs.length := by
        by_contra hc
        rw [List.drop_eq_nil_of_le (by omega)] at hm
        cases hm
      obtain ⟨s1, hs1⟩ := slopeAt_some (i := i + 1) hl hi1
      rw [hs1]
      obtain ⟨k, sl', e1, e2, e3, e4, e5, e6⟩ := ih (i + 1) s1 (by omega) hi1 hs1 ⟨x, hm, hxt⟩
      refine ⟨k, sl', e1, by omega, e3, e4, e5, Or.inr ?_⟩
      rcases e6 with rfl | h
      · intro y hy
        rw [Nat.add_sub_cancel, List.getElem?_eq_getElem h2] at hy
        injection hy with hy
        rw [← hy]; exact hx
      · exact h
    · rw [if_neg hx]
      refine ⟨i, sl, rfl, le_refl _, h2, h3, ?_, Or.inl rfl⟩
      intro x hx'
      rw [List.getElem?_eq_getElem h2] at hx'
      injection hx' with hx'
      rw [← hx']; exact not_lt.mp hx

theorem resample_spec (ys : List V) (xs : List ℚ) (hl : ys.length = xs.length) (last : ℚ)
    (hlast : xs.getLast? = some last) : ∀ (ts : List ℚ) (i : Nat) (sl : V), 1 ≤ i → i < xs.length → slopeAt ys xs i = .ok sl →
    ts.Pairwise (· ≤ ·) → (∀ t ∈ ts, t ≤ last) → (i = 1 ∨ ∀ t ∈ ts, ∀ x, xs[i - 1]? = some x → x < t) →
    ∃ vs, resample ys xs ts i sl = .ok vs ∧ List.Forall₂ (fun t v => OnCurve xs ys t v ∨ BeforeCurve xs ys t v) ts vs := by
  intro ts
  induction ts with
  | nil => intro i sl _ _ _ _ _ _; exact ⟨[], rfl, List.Forall₂.nil⟩
  | cons t ts ih =>
    intro i sl h1 h2 h3 hs ht hb
    obtain ⟨hst, hss⟩ := List.pairwise_cons.mp hs
    have hlm : last ∈ xs.drop i := by
      rw [List.getLast?_eq_getElem?] at hlast
      have : (xs.drop i)[xs.length - 1 - i]? = some last := by
        rw [List.getElem?_drop]
        rw [← hlast]; congr 1; omega
      exact List.mem_of_getElem? this
    obtain ⟨k, sl', e1, e2, e3, e4, e5, e6⟩ := advance_spec ys xs t hl (xs.length + 1) i sl (by omega) h2 h3
      ⟨last, hlm, ht t List.mem_cons_self⟩
    obtain ⟨x0, x1, y0, y1, g0, g1, g2, g3, g4⟩ := slopeAt_ok e4
    have hbk : k = 1 ∨ x0 < t := by
      rcases e6 with rfl | h
      · rcases hb with h | h
        · exact Or.inl h
        · exact Or.inr (h t List.mem_cons_self x0 g0)
      · exact Or.inr (h x0 g0)
    obtain ⟨vs, f1, f2⟩ := ih k sl' (by omega) e3 e4 hss (fun u hu => ht u (List.mem_cons_of_mem _ hu)) (by
      rcases hbk with h | h
      · exact Or.inl h
      · refine Or.inr fun u hu x hx => ?_
        rw [g0] at hx; injection hx with hx; subst hx
        exact lt_of_lt_of_le h (hst u hu))
    refine ⟨(y0 + (t - x0) • sl') :: vs, ?_, List.Forall₂.cons ?_ f2⟩
    · unfold resample
      rw [e1]; dsimp only
      rw [g0, g2]; dsimp only
      rw [f1]
    · have hv : y0 + (t - x0) • sl' = y0 + ((t - x0) / (x1 - x0)) • (y1 - y0) := by
        rw [g4, smul_smul, div_eq_mul_inv]
      by_cases hx : x0 ≤ t
      · refine Or.inl ⟨k - 1, x0, x1, y0, y1, g0, ?_, g2, ?_, hx, e5 x1 g1, hv⟩
        · rw [Nat.sub_add_cancel (by omega)]; exact g1
        · rw [Nat.sub_add_cancel (by omega)]; exact g3
      · have hk : k = 1 := by
          rcases hbk with h | h
          · exact h
          · exact absurd (le_of_lt h) hx
        subst hk
        exact Or.inr ⟨x0, x1, y0, y1, g0, g1, g2, g3, not_le.mp hx, hv⟩

/-- C81: a trace is brought onto another axis by straight lines between its own points: at every point of the new axis (in
increasing order, none beyond the end of the old axis) the new sample lies on the curve of the old trace, or, before its beginning,
on the continuation of its first segment. -/
theorem C81_interpolation (ys : List V) (xs new : List ℚ) (last : ℚ) (hl : ys.length = xs.length) (h2 : 2 ≤ xs.length)
    (hlast : xs.getLast? = some last) (hn : new ≠ []) (hs : new.Pairwise (· ≤ ·)) (hle : ∀ t ∈ new, t ≤ last) :
    ∃ vs, interpolate ys xs new = .ok vs ∧
      List.Forall₂ (fun t v => OnCurve xs ys t v ∨ BeforeCurve xs ys t v) new vs := by
  obtain ⟨sl, hsl⟩ := slopeAt_some (ys := ys) (xs := xs) (i := 1) hl (by omega)
  obtain ⟨vs, e1, e2⟩ := resample_spec ys xs hl last hlast new 1 sl (le_refl _) (by omega) hsl hs hle (Or.inl rfl)
  refine ⟨vs, ?_, e2⟩
  unfold interpolate
  rw [if_neg, hsl]
  · exact e1
  · rintro (h | h)
    · exact hn h
    · rw [h] at hl; simp at hl; omega

/-- C81: the value of a curve at a point is unique, so the previous theorem determines the samples. -/
theorem C81_curve_unique (ys : List V) (xs : List ℚ) (t : ℚ) (v w : V) (hx : Rising xs) (hv : OnCurve xs ys t v) (hw : OnCurve xs ys t w) : v = w := by
  have main : ∀ (k j : Nat) (x0 x1 z0 z1 : ℚ) (y0 y1 u0 u1 : V), k ≤ j → xs[k]? = some x0 → xs[k + 1]? = some x1 → ys[k]? = some y0 →
      ys[k + 1]? = some y1 → xs[j]? = some z0 → xs[j + 1]? = some z1 → ys[j]? = some u0 → ys[j + 1]? = some u1 → t ≤ x1 → z0 ≤ t →
      y0 + ((t - x0) / (x1 - x0)) • (y1 - y0) = u0 + ((t - z0) / (z1 - z0)) • (u1 - u0) := by
    intro k j x0 x1 z0 z1 y0 y1 u0 u1 hkj a0 a1 a2 a3 b0 b1 b2 b3 h1 h2
    have lt_of : ∀ (i l : Nat) (x z : ℚ), xs[i]? = some x → xs[l]? = some z → i < l → x < z := by
      intro i l x z hi hl hil
      obtain ⟨p1, rfl⟩ := List.getElem?_eq_some_iff.mp hi
      obtain ⟨p2, rfl⟩ := List.getElem?_eq_some_iff.mp hl
      exact List.pairwise_iff_getElem.mp hx i l p1 p2 hil
    rcases Nat.lt_or_eq_of_le hkj with h | rfl
    · rcases Nat.lt_or_eq_of_le (Nat.succ_le_of_lt h) with h' | h'
      · have := lt_of (k + 1) j x1 z0 a1 b0 h'
        exact absurd h2 (not_le.mpr (lt_of_le_of_lt h1 this))
      · have h' : j = k + 1 := h'.symm
        subst h'
        rw [a1] at b0; injection b0 with b0
        rw [a3] at b2; injection b2 with b2
        subst b0 b2
        have ht : t = x1 := le_antisymm h1 h2
        have hne : x1 - x0 ≠ 0 := by
          have := lt_of k (k + 1) x0 x1 a0 a1 (Nat.lt_succ_self k)
          exact ne_of_gt (by linarith)
        rw [ht, div_self hne, one_smul, sub_self, zero_div, zero_smul]
        abel
    · rw [a0] at b0; rw [a1] at b1; rw [a2] at b2; rw [a3] at b3
      injection b0 with b0; injection b1 with b1; injection b2 with b2; injection b3 with b3
      rw [b0, b1, b2, b3]
  obtain ⟨k, x0, x1, y0, y1, a0, a1, a2, a3, a4, a5, rfl⟩ := hv
  obtain ⟨j, z0, z1, u0, u1, b0, b1, b2, b3, b4, b5, rfl⟩ := hw
  rcases Nat.le_total k j with h | h
  · exact main k j x0 x1 z0 z1 y0 y1 u0 u1 h a0 a1 a2 a3 b0 b1 b2 b3 a5 b4
  · exact (main j k z0 z1 x0 x1 u0 u1 y0 y1 h b0 b1 b2 b3 a0 a1 a2 a3 b5 a4).symm

theorem advance_ok (ys : List V) (xs : List ℚ) (t : ℚ) : ∀ (fuel i : Nat) (sl : V) (k : Nat) (sl' : V),
    advance ys xs t fuel i sl = .ok (k, sl') → ∃ x ∈ xs, t ≤ x := by
  intro fuel
  induction fuel with
  | zero => intro i sl k sl' h; simp [advance] at h
  | succ n ih =>
    intro i sl k sl' h
    unfold advance at h
    cases hx : xs[i]? with
    | none => rw [hx] at h; cases h
    | some x =>
      rw [hx] at h
      dsimp only at h
      by_cases hxt : x < t
      · rw [if_pos hxt] at h
        cases hs : slopeAt ys xs (i + 1) with
        | error e => rw [hs] at h; cases h
        | ok s1 => rw [hs] at h; exact ih _ _ _ _ h
      · exact ⟨x, List.mem_of_getElem? hx, not_lt.mp hxt⟩

theorem resample_ok (ys : List V) (xs : List ℚ) : ∀ (ts : List ℚ) (i : Nat) (sl : V) (vs : List V),
    resample ys xs ts i sl = .ok vs → ∀ t ∈ ts, ∃ x ∈ xs, t ≤ x := by
  intro ts
  induction ts with
  | nil => intro i sl vs _ t ht; cases ht
  | cons u ts ih =>
    intro i sl vs h t ht
    unfold resample at h
    cases ha : advance ys xs u (xs.length + 1) i sl with
    | error e => rw [ha] at h; cases h
    | ok p =>
      obtain ⟨k, s1⟩ := p
      rw [ha] at h
      dsimp only at h
      rcases List.mem_cons.mp ht with rfl | ht
      · exact advance_ok ys xs t _ _ _ _ _ ha
      · split at h
        · cases hr : resample ys xs ts k s1 with
          | error e => rw [hr] at h; cases h
          | ok ws => exact ih _ _ _ hr t ht
        · cases h

/-- C81: a trace is never continued beyond its end: when a point of the new axis lies behind all points of the old one, the
import fails. -/
theorem C81_not_beyond (ys : List V) (xs new : List ℚ) (vs : List V) (h : interpolate ys xs new = .ok vs) :
    ∀ t ∈ new, ∃ x ∈ xs, t ≤ x := by
  unfold interpolate at h
  split_ifs at h
  cases hs : slopeAt ys xs 1 with
  | error e => rw [hs] at h; cases h
  | ok sl => rw [hs] at h; exact resample_ok ys xs new 1 sl vs h

/-! ### Merging two axes -/

theorem spaced_tail {g : ℚ} {x : ℚ} {xs : List ℚ} (h : Spaced g (x :: xs)) : Spaced g xs := fun k a b ha hb =>
  h (k + 1) a b (by simpa using ha) (by simpa using hb)

theorem spaced_head {g : ℚ} {x y : ℚ} {xs : List ℚ} (h : Spaced g (x :: y :: xs)) : x + g ≤ y := h 0 x y rfl rfl

theorem spaced_rising {g : ℚ} (hg : 0 < g) : ∀ {xs : List ℚ}, Spaced g xs → Rising xs
  | [], _ => List.Pairwise.nil
  | [_], _ => by unfold Rising; simp
  | x :: y :: xs, h => by
    have ih : Rising (y :: xs) := spaced_rising hg (spaced_tail h)
    refine List.Pairwise.cons ?_ ih
    intro z hz
    have hxy := spaced_head h
    rcases List.mem_cons.mp hz with rfl | hz
    · linarith
    · have := (List.pairwise_cons.mp ih).1 z hz
      linarith

theorem rising_head {x : ℚ} {xs : List ℚ} (h : Rising (x :: xs)) : ∀ z ∈ xs, x < z := (List.pairwise_cons.mp h).1
theorem rising_tail {x : ℚ} {xs : List ℚ} (h : Rising (x :: xs)) : Rising xs := (List.pairwise_cons.mp h).2

/-- What the merging does with the first points, as an induction principle. -/
theorem merge_ind {adm : ℚ} {P : List ℚ → List ℚ → List ℚ → Prop}
    (h0 : ∀ a b, a.length ≤ 1 ∨ b.length ≤ 1 → P a b [])
    (h1 : ∀ a a' as b b' bs m, |b - a| < adm → P (a' :: as) (b' :: bs) m → P (a :: a' :: as) (b :: b' :: bs) (a :: m))
    (h2 : ∀ a a' as b b' bs m, adm ≤ a - b → b < a → P (a :: a' :: as) (b' :: bs) m → P (a :: a' :: as) (b :: b' :: bs) (b :: m))
    (h3 : ∀ a a' as b b' bs m, adm ≤ b - a → a ≤ b → P (a' :: as) (b :: b' :: bs) m → P (a :: a' :: as) (b :: b' :: bs) (a :: m)) :
    ∀ (n : Nat) (a b : List ℚ), a.length + b.length ≤ n → P a b (mergeGo adm n a b) := by
  intro n
  induction n with
  | zero =>
    intro a b h
    have : a.length ≤ 1 := by omega
    exact h0 a b (Or.inl this)
  | succ n ih =>
    intro a b h
    match a, b, h with
    | [], b, _ => exact h0 [] b (Or.inl (by simp))
    | [x], b, _ => exact h0 [x] b (Or.inl (by simp))
    | x :: x' :: xs, [], _ => exact h0 _ [] (Or.inr (by simp))
    | x :: x' :: xs, [y], _ => exact h0 _ [y] (Or.inr (by simp))
    | x :: x' :: xs, y :: y' :: ys, h =>
      simp only [List.length_cons] at h
      unfold mergeGo
      by_cases c1 : |y - x| < adm
      · rw [if_pos c1]
        exact h1 _ _ _ _ _ _ _ c1 (ih _ _ (by simp only [List.length_cons]; omega))
      · rw [if_neg c1]
        have hc : adm ≤ |y - x| := not_lt.mp c1
        by_cases c2 : y - x < 0
        · rw [if_pos c2]
          rw [abs_of_neg c2] at hc
          exact h2 _ _ _ _ _ _ _ (by linarith) (by linarith) (ih _ _ (by simp only [List.length_cons]; omega))
        · rw [if_neg c2]
          have c3 : 0 ≤ y - x := not_lt.mp c2
          rw [abs_of_nonneg c3] at hc
          exact h3 _ _ _ _ _ _ _ hc (by linarith) (ih _ _ (by simp only [List.length_cons]; omega))

theorem drop_last_cons {α : Type} (x y : α) (l : List α) : (x :: y :: l).dropLast = x :: (y :: l).dropLast := rfl

/-- C81: the merged axis consists of points of the two axes, without their last points. -/
theorem C81_axis_points (adm : ℚ) (mine other : List ℚ) : ∀ p ∈ mergeAxes adm mine other, p ∈ mine.dropLast ∨ p ∈ other.dropLast := by
  refine merge_ind (P := fun a b m => ∀ p ∈ m, p ∈ a.dropLast ∨ p ∈ b.dropLast) ?_ ?_ ?_ ?_ _ _ _ (le_refl _)
  · intro a b _ p hp; cases hp
  · intro a a' as b b' bs m _ ih p hp
    rw [drop_last_cons, drop_last_cons]
    rcases List.mem_cons.mp hp with rfl | hp
    · exact Or.inl List.mem_cons_self
    · exact (ih p hp).imp (List.mem_cons_of_mem _) (List.mem_cons_of_mem _)
  · intro a a' as b b' bs m _ _ ih p hp
    rw [drop_last_cons b]
    rcases List.mem_cons.mp hp with rfl | hp
    · exact Or.inr List.mem_cons_self
    · exact (ih p hp).imp id (List.mem_cons_of_mem _)
  · intro a a' as b b' bs m _ _ ih p hp
    rw [drop_last_cons a]
    rcases List.mem_cons.mp hp with rfl | hp
    · exact Or.inl List.mem_cons_self
    · exact (ih p hp).imp (List.mem_cons_of_mem _) id

theorem merge_mem (adm : ℚ) (n : Nat) (a b : List ℚ) (h : a.length + b.length ≤ n) :
    ∀ p ∈ mergeGo adm n a b, p ∈ a ∨ p ∈ b := by
  refine merge_ind (P := fun a b m => ∀ p ∈ m, p ∈ a ∨ p ∈ b) ?_ ?_ ?_ ?_ n a b h
  · intro a b _ p hp; cases hp
  · intro a a' as b b' bs m _ ih p hp
    rcases List.mem_cons.mp hp with rfl | hp
    · exact Or.inl List.mem_cons_self
    · exact (ih p hp).imp (List.mem_cons_of_mem _) (List.mem_cons_of_mem _)
  · intro a a' as b b' bs m _ _ ih p hp
    rcases List.mem_cons.mp hp with rfl | hp
    · exact Or.inr List.mem_cons_self
    · exact (ih p hp).imp id (List.mem_cons_of_mem _)
  · intro a a' as b b' bs m _ _ ih p hp
    rcases List.mem_cons.mp hp with rfl | hp
    · exact Or.inl List.mem_cons_self
    · exact (ih p hp).imp (List.mem_cons_of_mem _) id

/-- C81: the merged axis is strictly increasing when the axis of the file is and the points of the added axis are at least the
admissible error apart. -/
theorem C81_axis_rising (adm : ℚ) (mine other : List ℚ) (hadm : 0 < adm) (h1 : Rising mine) (h2 : Spaced adm other) :
    Rising (mergeAxes adm mine other) := by
  have key := merge_ind (adm := adm) (P := fun a b m => Rising a → Spaced adm b → (∀ p ∈ m, p ∈ a ∨ p ∈ b) ∧ Rising m)
    ?_ ?_ ?_ ?_ (mine.length + other.length) mine other (le_refl _)
  · exact (key h1 h2).2
  · intro a b _ _ _
    exact ⟨fun p hp => absurd hp (by simp), List.Pairwise.nil⟩
  · intro a a' as b b' bs m hc ih ha hb
    obtain ⟨i1, i2⟩ := ih (rising_tail ha) (spaced_tail hb)
    have hb' := rising_head (spaced_rising hadm hb)
    have hgap := spaced_head hb
    have htail := spaced_rising hadm (spaced_tail hb)
    refine ⟨?_, List.Pairwise.cons ?_ i2⟩
    · intro p hp
      rcases List.mem_cons.mp hp with rfl | hp
      · exact Or.inl List.mem_cons_self
      · exact (i1 p hp).imp (List.mem_cons_of_mem _) (List.mem_cons_of_mem _)
    · intro p hp
      rcases i1 p hp with h | h
      · exact rising_head ha p h
      · have : a - b < adm := by have := (abs_lt.mp hc).1; linarith
        rcases List.mem_cons.mp h with rfl | h
        · linarith
        · have := rising_head htail p h; linarith
  · intro a a' as b b' bs m hc hlt ih ha hb
    obtain ⟨i1, i2⟩ := ih ha (spaced_tail hb)
    refine ⟨?_, List.Pairwise.cons ?_ i2⟩
    · intro p hp
      rcases List.mem_cons.mp hp with rfl | hp
      · exact Or.inr List.mem_cons_self
      · exact (i1 p hp).imp id (List.mem_cons_of_mem _)
    · intro p hp
      rcases i1 p hp with h | h
      · rcases List.mem_cons.mp h with rfl | h
        · exact hlt
        · have := rising_head ha p h; linarith
      · exact rising_head (spaced_rising hadm hb) p h
  · intro a a' as b b' bs m hc hle ih ha hb
    obtain ⟨i1, i2⟩ := ih (rising_tail ha) hb
    refine ⟨?_, List.Pairwise.cons ?_ i2⟩
    · intro p hp
      rcases List.mem_cons.mp hp with rfl | hp
      · exact Or.inl List.mem_cons_self
      · exact (i1 p hp).imp (List.mem_cons_of_mem _) id
    · intro p hp
      rcases i1 p hp with h | h
      · exact rising_head ha p h
      · rcases List.mem_cons.mp h with rfl | h
        · linarith
        · have := rising_head (spaced_rising hadm hb) p h; linarith

theorem last_ge {xs : List ℚ} (h : Rising xs) {z : ℚ} (hz : xs.getLast? = some z) : ∀ p ∈ xs, p ≤ z := by
  intro p hp
  rw [List.getLast?_eq_getElem?] at hz
  obtain ⟨i, hi, rfl⟩ := List.getElem_of_mem hp
  obtain ⟨hl, rfl⟩ := List.getElem?_eq_some_iff.mp hz
  rcases Nat.lt_or_ge i (xs.length - 1) with h1 | h1
  · exact le_of_lt (List.pairwise_iff_getElem.mp h i _ hi hl h1)
  · have : i = xs.length - 1 := by omega
    subst this; exact le_refl _

theorem last_tail {x y z : ℚ} {xs : List ℚ} (h : (x :: y :: xs).getLast? = some z) : (y :: xs).getLast? = some z := by
  rw [List.getLast?_cons_cons] at h; exact h

/-- C81: no point of the merged axis lies at or behind the end of either axis. -/
theorem C81_axis_inside (adm : ℚ) (mine other : List ℚ) (z1 z2 : ℚ) (hadm : 0 < adm) (h1 : Rising mine) (h2 : Spaced adm other)
    (hz1 : mine.getLast? = some z1) (hz2 : other.getLast? = some z2) :
    ∀ p ∈ mergeAxes adm mine other, p < z1 ∧ p < z2 := by
  have key := merge_ind (adm := adm) (P := fun a b m => Rising a → Spaced adm b → a.getLast? = some z1 → b.getLast? = some z2 →
    ∀ p ∈ m, p < z1 ∧ p < z2) ?_ ?_ ?_ ?_ (mine.length + other.length) mine other (le_refl _)
  · exact key h1 h2 hz1 hz2
  · intro a b _ _ _ _ _ p hp; cases hp
  · intro a a' as b b' bs m hc ih ha hb hz1 hz2 p hp
    rcases List.mem_cons.mp hp with rfl | hp
    · have e1 : p < z1 := rising_head ha z1 (List.mem_of_getLast? (last_tail hz1))
      have e2 := spaced_head hb
      have e3 := last_ge (spaced_rising hadm (spaced_tail hb)) (last_tail hz2) b' List.mem_cons_self
      have e4 := (abs_lt.mp hc).1
      exact ⟨e1, by linarith⟩
    · exact ih (rising_tail ha) (spaced_tail hb) (last_tail hz1) (last_tail hz2) p hp
  · intro a a' as b b' bs m hc hlt ih ha hb hz1 hz2 p hp
    rcases List.mem_cons.mp hp with rfl | hp
    · have e1 := last_ge ha hz1 a List.mem_cons_self
      have e2 := rising_head (spaced_rising hadm hb) z2 (List.mem_of_getLast? (last_tail hz2))
      exact ⟨by linarith, e2⟩
    · exact ih ha (spaced_tail hb) hz1 (last_tail hz2) p hp
  · intro a a' as b b' bs m hc hle ih ha hb hz1 hz2 p hp
    rcases List.mem_cons.mp hp with rfl | hp
    · have e1 : p < z1 := rising_head ha z1 (List.mem_of_getLast? (last_tail hz1))
      have e2 := last_ge (spaced_rising hadm hb) hz2 b List.mem_cons_self
      exact ⟨e1, by linarith⟩
    · exact ih (rising_tail ha) hb (last_tail hz1) hz2 p hp

theorem head_le {x : ℚ} {xs : List ℚ} (h : Rising (x :: xs)) (p : ℚ) (hp : p ∈ x :: xs) : x ≤ p := by
  rcases List.mem_cons.mp hp with rfl | hp
  · exact le_refl _
  · exact le_of_lt (rising_head h p hp)

/-- C81: no point is lost while the other axis goes on: a point of the file's axis that is not its last one is a point of the merged
axis when the added axis has a point, other than its last, at the same place or behind it. -/
theorem C81_axis_keeps_mine (adm : ℚ) (mine other : List ℚ) (hadm : 0 < adm) (h1 : Spaced adm mine) (p q : ℚ)
    (hp : p ∈ mine.dropLast) (hq : q ∈ other.dropLast) (hpq : p ≤ q) : p ∈ mergeAxes adm mine other := by
  have key := merge_ind (adm := adm) (P := fun a b m => Spaced adm a → p ∈ a.dropLast → q ∈ b.dropLast → p ∈ m)
    ?_ ?_ ?_ ?_ (mine.length + other.length) mine other (le_refl _)
  · exact key h1 hp hq
  · intro a b h _ ha hb
    rcases h with h | h
    · match a, h, ha with
      | [], _, ha => cases ha
      | [_], _, ha => cases ha
    · match b, h, hb with
      | [], _, hb => cases hb
      | [_], _, hb => cases hb
  · intro a a' as b b' bs m hc ih ha hp hq
    rw [drop_last_cons] at hp hq
    rcases List.mem_cons.mp hp with rfl | hp
    · exact List.mem_cons_self
    · refine List.mem_cons_of_mem _ (ih (spaced_tail ha) hp ?_)
      rcases List.mem_cons.mp hq with rfl | hq
      · have e1 := spaced_head ha
        have e2 := head_le (spaced_rising hadm (spaced_tail ha)) p ((List.dropLast_sublist _).subset hp)
        have e3 := (abs_lt.mp hc).2
        exfalso; linarith
      · exact hq
  · intro a a' as b b' bs m hc hlt ih ha hp hq
    rw [drop_last_cons b] at hq
    refine List.mem_cons_of_mem _ (ih ha hp ?_)
    rcases List.mem_cons.mp hq with rfl | hq
    · have e2 := head_le (spaced_rising hadm ha) p ((List.dropLast_sublist _).subset hp)
      exfalso; linarith
    · exact hq
  · intro a a' as b b' bs m hc hle ih ha hp hq
    rw [drop_last_cons a] at hp
    rcases List.mem_cons.mp hp with rfl | hp
    · exact List.mem_cons_self
    · exact List.mem_cons_of_mem _ (ih (spaced_tail ha) hp hq)

/-- C81: … and a point of the added axis is a point of the merged axis, or is represented there by a point of the file closer to it
than the admissible error. -/
theorem C81_axis_keeps_added (adm : ℚ) (mine other : List ℚ) (hadm : 0 < adm) (h1 : Rising mine) (h2 : Spaced adm other) (p q : ℚ)
    (hp : p ∈ other.dropLast) (hq : q ∈ mine.dropLast) (hpq : p ≤ q) :
    p ∈ mergeAxes adm mine other ∨ ∃ r ∈ mergeAxes adm mine other, r ∈ mine ∧ |p - r| < adm := by
  have key := merge_ind (adm := adm) (P := fun a b m => Rising a → Spaced adm b → q ∈ a.dropLast → p ∈ b.dropLast →
      p ∈ m ∨ ∃ r ∈ m, r ∈ a ∧ |p - r| < adm)
    ?_ ?_ ?_ ?_ (mine.length + other.length) mine other (le_refl _)
  · exact key h1 h2 hq hp
  · intro a b h _ _ ha hb
    rcases h with h | h
    · match a, h, ha with
      | [], _, ha => cases ha
      | [_], _, ha => cases ha
    · match b, h, hb with
      | [], _, hb => cases hb
      | [_], _, hb => cases hb
  · intro a a' as b b' bs m hc ih ha hb hq hp
    rw [drop_last_cons] at hp hq
    rcases List.mem_cons.mp hp with rfl | hp
    · exact Or.inr ⟨a, List.mem_cons_self, List.mem_cons_self, hc⟩
    · have hq' : q ∈ (a' :: as).dropLast := by
        rcases List.mem_cons.mp hq with rfl | hq
        · have e1 := spaced_head hb
          have e2 := head_le (spaced_rising hadm (spaced_tail hb)) p ((List.dropLast_sublist _).subset hp)
          have e3 := (abs_lt.mp hc).1
          exfalso; linarith
        · exact hq
      rcases ih (rising_tail ha) (spaced_tail hb) hq' hp with h | ⟨r, h3, h4, h5⟩
      · exact Or.inl (List.mem_cons_of_mem _ h)
      · exact Or.inr ⟨r, List.mem_cons_of_mem _ h3, List.mem_cons_of_mem _ h4, h5⟩
  · intro a a' as b b' bs m hc hlt ih ha hb hq hp
    rw [drop_last_cons b] at hp
    rcases List.mem_cons.mp hp with rfl | hp
    · exact Or.inl List.mem_cons_self
    · rcases ih ha (spaced_tail hb) hq hp with h | ⟨r, h3, h4, h5⟩
      · exact Or.inl (List.mem_cons_of_mem _ h)
      · exact Or.inr ⟨r, List.mem_cons_of_mem _ h3, h4, h5⟩
  · intro a a' as b b' bs m hc hle ih ha hb hq hp
    rw [drop_last_cons a] at hq
    have hq' : q ∈ (a' :: as).dropLast := by
      rcases List.mem_cons.mp hq with rfl | hq
      · have e2 := head_le (spaced_rising hadm hb) p ((List.dropLast_sublist _).subset hp)
        exfalso; linarith
      · exact hq
    rcases ih (rising_tail ha) hb hq' hp with h | ⟨r, h3, h4, h5⟩
    · exact Or.inl (List.mem_cons_of_mem _ h)
    · exact Or.inr ⟨r, List.mem_cons_of_mem _ h3, List.mem_cons_of_mem _ h4, h5⟩

/-! ### Names -/

theorem take_drop_split (l : Str) : ∀ x r, l.dropWhile (· ≠ ')') = x :: r → l = l.takeWhile (· ≠ ')') ++ ')' :: r := by
  intro x r h
  have h1 := List.takeWhile_append_dropWhile (p := fun c => decide (c ≠ ')')) (l := l)
  rw [h] at h1
  have hx : x = ')' := by
    have := List.head?_dropWhile_not (fun c => decide (c ≠ ')')) l
    rw [h] at this
    simpa using this
  rw [hx] at h1
  exact h1.symm

/-- The bracketed name the code recognises. -/
theorem container_iff (name : Str) (c : Char) (net : Str) : container name = some (c, net) ↔
    (c = 'V' ∨ c = 'v' ∨ c = 'I' ∨ c = 'i') ∧ net ≠ [] ∧ ')' ∉ net ∧ ∃ rest, name = c :: '(' :: (net ++ ')' :: rest) := by
  constructor
  · intro h
    unfold container at h
    split at h
    · rename_i d rest
      split_ifs at h with hd
      dsimp only at h
      split at h
      · cases h
      · rename_i x r hr
        split_ifs at h with hn
        injection h with h
        injection h with h1 h2
        subst h1
        refine ⟨?_, ?_, ?_, r, ?_⟩
        · simp only [List.mem_cons, List.not_mem_nil, or_false] at hd; tauto
        · rw [← h2]; exact hn
        · rw [← h2]; intro hm
          have := List.mem_takeWhile_imp hm
          simp at this
        · rw [← h2, ← take_drop_split rest x r hr]
    · cases h
  · rintro ⟨h1, h2, h3, rest, rfl⟩
    show (if c ∈ ['I', 'V', 'i', 'v'] then
        match List.dropWhile (fun x => decide (x ≠ ')')) (net ++ ')' :: rest) with
        | [] => none
        | _ :: _ =>
          if List.takeWhile (fun x => decide (x ≠ ')')) (net ++ ')' :: rest) = [] then none
          else some (c, List.takeWhile (fun x => decide (x ≠ ')')) (net ++ ')' :: rest))
      else none) = _
    rw [if_pos (by simp only [List.mem_cons, List.not_mem_nil, or_false]; tauto)]
    have hall : ∀ x ∈ net, (fun c => decide (c ≠ ')')) x = true := by
      intro x hx; simp only [decide_eq_true_eq]; rintro rfl; exact h3 hx
    rw [List.dropWhile_append_of_pos hall, List.takeWhile_append_of_pos hall]
    simp [h2]

/-- C81: an imported trace keeps its name; with a tag, the tag is put behind the name of the net, inside the brackets of V() and I(). -/
theorem C81_names (tag : Option Str) (name given : Str) : rename tag name = given ↔ NamedAs tag name given := by
  unfold rename NamedAs
  cases tag with
  | none => simp [eq_comm]
  | some t =>
    simp only [reduceCtorEq, false_and, false_or, Option.some.injEq, exists_eq_left']
    cases hc : container name with
    | some p =>
      obtain ⟨c, net⟩ := p
      obtain ⟨h1, h2, h3, rest, h4⟩ := (container_iff name c net).mp hc
      dsimp only
      constructor
      · rintro rfl; rw [h4]; exact Tagged.inside c net rest h1 h2 h3
      · intro h
        cases h with
        | inside c' net' rest' g1 g2 g3 =>
          have := (container_iff _ c' net').mpr ⟨g1, g2, g3, rest', rfl⟩
          rw [this] at hc
          injection hc with hc
          injection hc with hc1 hc2
          rw [hc1, hc2]
        | behind _ hn => exact absurd ⟨c, net, rest, h1, h2, h3, h4⟩ hn
    | none =>
      dsimp only
      constructor
      · rintro rfl
        refine Tagged.behind name ?_
        rintro ⟨c, net, rest, h1, h2, h3, h4⟩
        have := (container_iff name c net).mpr ⟨h1, h2, h3, rest, h4⟩
        rw [this] at hc; cases hc
      · intro h
        cases h with
        | inside c' net' rest' g1 g2 g3 =>
          have := (container_iff _ c' net').mpr ⟨g1, g2, g3, rest', rfl⟩
          rw [this] at hc; cases hc
        | behind _ hn => rfl

/-! ### Importing and saving -/

/-- One imported trace: the file it comes from, its name there, and the tag. -/
structure Request (V : Type) where
  source : Source V
  name : Str
  tag : Option Str

/-- A history of aligned imports of step 0 into the file `w0`, none of which leaves an empty axis. -/
inductive Session (adm : ℚ) (w0 : File V) : List (Request V) → File V → Prop
  | start : w0.newAxis = [] → w0.pending = [] → Session adm w0 [] w0
  | more {reqs : List (Request V)} {w w' : File V} (o : Source V) (names : List Str) (tag : Option Str) :
      Session adm w0 reqs w → addTraces ⟨true, adm, 0, tag⟩ o names w = .ok w' → w'.newAxis ≠ [] →
      Session adm w0 (reqs ++ names.map (fun n => ⟨o, n, tag⟩)) w'

/-- The axis of the first step of a source. -/
def Axis0 (o : Source V) : List ℚ := o.axis.getD 0 []

/-- A source that can be merged: its axis begins at `x0`, its points are far enough apart, every trace has a sample for each point. -/
structure Mergeable (adm x0 : ℚ) (o : Source V) : Prop where
  start : (Axis0 o).head? = some x0
  spaced : Spaced adm (Axis0 o)
  full : ∀ n d, o.traces.lookup n = some d → (d.getD 0 []).length = (Axis0 o).length

/-- The trace waiting for a request. -/
def Waits (r : Request V) (p : Pending V) : Prop :=
  p.src = r.source.id ∧ p.key = r.name ∧ NamedAs r.tag r.name p.name ∧ p.axis = Axis0 r.source ∧
    ∃ d, r.source.traces.lookup r.name = some d ∧ p.data = d.getD 0 []

theorem pend_ok {tag : Option Str} {o : Source V} {w w' : File V} {n : Str} (h : pend tag o w n = .ok w')
    (hf : ∀ p ∈ w.pending, ¬ (p.src = o.id ∧ p.key = n)) :
    ∃ p, Waits ⟨o, n, tag⟩ p ∧ w' = { w with pending := w.pending ++ [p] } := by
  unfold pend Source.trace at h
  cases hd : o.traces.lookup n with
  | none => rw [hd] at h; cases h
  | some d =>
    rw [hd] at h
    dsimp only at h
    injection h with h
    refine ⟨⟨o.id, n, rename tag n, d.getD 0 [], o.axis.getD 0 []⟩, ⟨rfl, rfl, (C81_names tag n _).mp rfl, rfl, d, hd, rfl⟩, ?_⟩
    rw [← h]
    congr 2
    conv_rhs => rw [← List.map_id w.pending]
    exact List.map_congr_left fun p hp => if_neg (hf p hp)

theorem each_pend {tag : Option Str} {o : Source V} : ∀ (names : List Str) (w w' : File V), each (pend tag o) names w = .ok w' →
    names.Nodup → (∀ n ∈ names, ∀ p ∈ w.pending, ¬ (p.src = o.id ∧ p.key = n)) →
    ∃ ps, List.Forall₂ Waits (names.map (fun n => ⟨o, n, tag⟩)) ps ∧ w' = { w with pending := w.pending ++ ps } := by
  intro names
  induction names with
  | nil =>
    intro w w' h _ _
    injection h with h
    exact ⟨[], List.Forall₂.nil, by rw [← h]; simp⟩
  | cons n ns ih =>
    intro w w' h hnd hf
    unfold each at h
    cases hp : pend tag o w n with
    | error e => rw [hp] at h; cases h
    | ok w1 =>
      rw [hp] at h
      dsimp only at h
      obtain ⟨hn, hnd'⟩ := List.nodup_cons.mp hnd
      obtain ⟨p, h1, h2⟩ := pend_ok hp (hf n List.mem_cons_self)
      obtain ⟨ps, h3, h4⟩ := ih w1 w' h hnd' (by
        intro m hm q hq
        rw [h2] at hq
        rcases List.mem_append.mp hq with hq | hq
        · exact hf m (List.mem_cons_of_mem _ hm) q hq
        · rw [List.mem_singleton] at hq
          subst hq
          rintro ⟨_, hk⟩
          rw [h1.2.1] at hk
          have hk' : n = m := hk
          exact hn (hk' ▸ hm))
      refine ⟨p :: ps, List.Forall₂.cons h1 h3, ?_⟩
      rw [h4, h2]
      simp

theorem merge_head {adm x0 : ℚ} (hadm : 0 < adm) {a b : List ℚ} (ha : a.head? = some x0) (hb : b.head? = some x0)
    (hn : mergeAxes adm a b ≠ []) : (mergeAxes adm a b).head? = some x0 := by
  unfold mergeAxes at *
  match a, b, ha, hb, hn with
  | [x], b, _, _, hn =>
    exfalso; apply hn
    cases b <;> simp [mergeGo]
  | x :: x' :: xs, [y], _, _, hn =>
    exfalso; apply hn
    simp [mergeGo]
  | x :: x' :: xs, y :: y' :: ys, ha, hb, _ =>
    simp only [List.head?_cons, Option.some.injEq] at ha hb
    rw [ha, hb]
    have : (x0 :: x' :: xs).length + (x0 :: y' :: ys).length = ((x' :: xs).length + (x0 :: y' :: ys).length) + 1 := by
      simp only [List.length_cons]; omega
    rw [this]
    unfold mergeGo
    rw [if_pos (by simpa using hadm)]
    rfl

/-- What holds during a history of imports. -/
structure Inv (x0 : ℚ) (w0 : File V) (axis : List ℚ) (reqs : List (Request V)) (w : File V) : Prop where
  base : w.axis = some axis
  traces : w.traces = w0.traces
  waits : List.Forall₂ Waits reqs w.pending
  merged : (reqs = [] ∧ w.newAxis = []) ∨ (Rising w.newAxis ∧ w.newAxis.head? = some x0 ∧
    (∀ p ∈ w.newAxis, ∀ z, axis.getLast? = some z → p < z) ∧
    ∀ p ∈ w.newAxis, ∀ r ∈ reqs, ∀ z, (Axis0 r.source).getLast? = some z → p < z)

theorem forall₂_right {α β : Type} {R : α → β → Prop} {xs : List α} {ys : List β} (h : List.Forall₂ R xs ys) :
    ∀ y ∈ ys, ∃ x ∈ xs, R x y := by
  induction h with
  | nil => intro y hy; cases hy
  | cons h1 _ ih =>
    intro y hy
    rcases List.mem_cons.mp hy with rfl | hy
    · exact ⟨_, List.mem_cons_self, h1⟩
    · obtain ⟨x, hx, hr⟩ := ih y hy; exact ⟨x, List.mem_cons_of_mem _ hx, hr⟩

theorem forall₂_left {α β : Type} {R : α → β → Prop} {xs : List α} {ys : List β} (h : List.Forall₂ R xs ys) :
    ∀ x ∈ xs, ∃ y ∈ ys, R x y := by
  induction h with
  | nil => intro y hy; cases hy
  | cons h1 _ ih =>
    intro y hy
    rcases List.mem_cons.mp hy with rfl | hy
    · exact ⟨_, List.mem_cons_self, h1⟩
    · obtain ⟨x, hx, hr⟩ := ih y hy; exact ⟨x, List.mem_cons_of_mem _ hx, hr⟩

theorem nodup_of_map {α β : Type} (f : α → β) : ∀ (l : List α), (l.map f).Nodup → l.Nodup
  | [], _ => List.nodup_nil
  | a :: l, h => by
    rw [List.map_cons, List.nodup_cons] at h
    exact List.nodup_cons.mpr ⟨fun hm => h.1 (List.mem_map.mpr ⟨a, hm, rfl⟩), nodup_of_map f l h.2⟩

theorem session_inv {adm x0 : ℚ} (hadm : 0 < adm) {w0 : File V} {axis : List ℚ} (h0 : w0.axis = some axis) (hr : Rising axis)
    (hx : axis.head? = some x0) {reqs : List (Request V)} {w : File V} (h : Session adm w0 reqs w) :
    (∀ r ∈ reqs, Mergeable adm x0 r.source) → (reqs.map (fun r => (r.source.id, r.name))).Nodup → Inv x0 w0 axis reqs w := by
  induction h with
  | start e1 e2 =>
    intro _ _
    exact ⟨h0, rfl, by rw [e2]; exact List.Forall₂.nil, Or.inl ⟨rfl, e1⟩⟩
  | @more reqs w w' o names tag hs ha hne ih =>
    intro hm hnd
    rw [List.map_append, List.nodup_append] at hnd
    obtain ⟨n1, n2, n3⟩ := hnd
    have inv := ih (fun r hr => hm r (List.mem_append_left _ hr)) n1
    unfold addTraces at ha
    rw [inv.base] at ha
    dsimp only at ha
    split_ifs at ha with c1 c2 c3
    · injection ha with ha
      subst ha c3
      simp only [List.map_nil, List.append_nil]
      exact inv
    · rename_i c4
      unfold importAligned at ha
      obtain ⟨ps, h1, h2⟩ := each_pend names _ w' ha (by
          rw [List.map_map] at n2
          exact nodup_of_map _ _ n2) (by
          intro n hn p hp hk
          obtain ⟨r, hr', hw⟩ := forall₂_right inv.waits p hp
          refine n3 (r.source.id, r.name) (List.mem_map.mpr ⟨r, hr', rfl⟩) (o.id, n) (List.mem_map.mpr ⟨⟨o, n, tag⟩, List.mem_map.mpr ⟨n, hn, rfl⟩, rfl⟩) ?_
          rw [← hw.1, ← hw.2.1, hk.1, hk.2])
      obtain ⟨n0, ns, rfl⟩ := List.exists_cons_of_ne_nil c3
      have mo : Mergeable adm x0 o := hm ⟨o, n0, tag⟩ (List.mem_append_right _ (by simp))
      -- the axis of the file so far
      have hmine : ∃ mine, (if w.newAxis = [] then axis else w.newAxis) = mine ∧ Rising mine ∧ mine.head? = some x0 ∧
          (∀ p ∈ mine, ∀ z, axis.getLast? = some z → p ≤ z) ∧
          ∀ p ∈ mine, ∀ r ∈ reqs, ∀ z, (Axis0 r.source).getLast? = some z → p < z := by
        rcases inv.merged with ⟨i1, i2⟩ | ⟨i1, i2, i3, i4⟩
        · refine ⟨axis, by rw [if_pos i2], hr, hx, fun p hp z hz => last_ge hr hz p hp, ?_⟩
          rw [i1]; intro p _ r hr'; cases hr'
        · refine ⟨w.newAxis, ?_, i1, i2, fun p hp z hz => le_of_lt (i3 p hp z hz), i4⟩
          rw [if_neg]; intro e; rw [e] at i2; cases i2
      obtain ⟨mine, m1, m2, m3, m4, m5⟩ := hmine
      rw [m1] at h2
      have hnew : w'.newAxis = mergeAxes adm mine (Axis0 o) := by rw [h2]; rfl
      have hz1 : ∃ z1, mine.getLast? = some z1 := by
        cases hl : mine.getLast? with
        | none => rw [List.getLast?_eq_none_iff] at hl; rw [hl] at m3; cases m3
        | some z => exact ⟨z, rfl⟩
      obtain ⟨z1, hz1⟩ := hz1
      have hz2 : ∃ z2, (Axis0 o).getLast? = some z2 := by
        cases hl : (Axis0 o).getLast? with
        | none => rw [List.getLast?_eq_none_iff] at hl; have := mo.start; rw [hl] at this; cases this
        | some z => exact ⟨z, rfl⟩
      obtain ⟨z2, hz2⟩ := hz2
      have hin := C81_axis_inside adm mine (Axis0 o) z1 z2 hadm m2 mo.spaced hz1 hz2
      refine ⟨by rw [h2]; exact inv.base, by rw [h2]; exact inv.traces, ?_, Or.inr ⟨?_, ?_, ?_, ?_⟩⟩
      · rw [h2]; exact List.rel_append inv.waits h1
      · rw [hnew]; exact C81_axis_rising adm mine (Axis0 o) hadm m2 mo.spaced
      · rw [hnew]; exact merge_head hadm m3 mo.start (hnew ▸ hne)
      · rw [hnew]; intro p hp z hz
        exact lt_of_lt_of_le (hin p hp).1 (m4 z1 (List.mem_of_getLast? hz1) z hz)
      · rw [hnew]; intro p hp r hr' z hz
        rcases List.mem_append.mp hr' with hr' | hr'
        · exact lt_trans (hin p hp).1 (m5 z1 (List.mem_of_getLast? hz1) r hr' z hz)
        · obtain ⟨n, _, rfl⟩ := List.mem_map.mp hr'
          dsimp only at hz
          rw [hz2] at hz; injection hz with hz
          rw [← hz]; exact (hin p hp).2
    · rename_i c4
      exact absurd rfl c4

/-- Resampling inside the range. -/
theorem inside_curve {x0 : ℚ} {xs new : List ℚ} {ys : List V} (hx : xs.head? = some x0)
    (hl : ys.length = xs.length) (hn : new.head? = some x0) (hnr : Rising new) (hlt : ∀ p ∈ new, ∀ z, xs.getLast? = some z → p < z) :
    ∃ vs, interpolate ys xs new = .ok vs ∧ List.Forall₂ (OnCurve xs ys) new vs := by
  cases hz : xs.getLast? with
  | none => rw [List.getLast?_eq_none_iff] at hz; rw [hz] at hx; cases hx
  | some z =>
    have hm : x0 ∈ new := List.mem_of_head? hn
    have h2 : 2 ≤ xs.length := by
      match xs, hx, hz with
      | [x], hx, hz =>
        simp only [List.head?_cons, Option.some.injEq] at hx
        simp only [List.getLast?_singleton, Option.some.injEq] at hz
        have := hlt x0 hm z (by simp [hz])
        rw [← hx, ← hz] at this
        exact absurd this (lt_irrefl _)
      | _ :: _ :: _, _, _ => simp only [List.length_cons]; omega
    obtain ⟨vs, e1, e2⟩ := C81_interpolation ys xs new z hl h2 hz (by rintro rfl; cases hn)
      (hnr.imp le_of_lt) (fun t ht => le_of_lt (hlt t ht z hz))
    refine ⟨vs, e1, ?_⟩
    have hge : ∀ t ∈ new, x0 ≤ t := by
      match new, hn, hnr with
      | y :: ys, hn, hnr =>
        simp only [List.head?_cons, Option.some.injEq] at hn
        subst hn
        exact head_le hnr
    have hb : ∀ (ts : List ℚ) (us : List V), (∀ t ∈ ts, x0 ≤ t) →
        List.Forall₂ (fun t v => OnCurve xs ys t v ∨ BeforeCurve xs ys t v) ts us → List.Forall₂ (OnCurve xs ys) ts us := by
      intro ts us hts h
      induction h with
      | nil => exact List.Forall₂.nil
      | @cons t v ts us h1 _ ih =>
        refine List.Forall₂.cons ?_ (ih (fun u hu => hts u (List.mem_cons_of_mem _ hu)))
        rcases h1 with h1 | ⟨a, b, c, d, g0, _, _, _, g4, _⟩
        · exact h1
        · rw [← List.head?_eq_getElem?, hx] at g0
          injection g0 with g0
          rw [← g0] at g4
          exact absurd g4 (not_lt.mpr (hts t List.mem_cons_self))
    exact hb new vs hge e2

theorem redo_ok {axis new : List ℚ} : ∀ (ts : List (Wave V)), (∀ t ∈ ts, ∃ vs, interpolate t.data axis new = .ok vs ∧ List.Forall₂ (OnCurve axis t.data) new vs) →
    ∃ us, redo axis new ts = .ok us ∧
      List.Forall₂ (fun (t u : Wave V) => u.name = t.name ∧ List.Forall₂ (OnCurve axis t.data) new u.data) ts us := by
  intro ts
  induction ts with
  | nil => intro _; exact ⟨[], rfl, List.Forall₂.nil⟩
  | cons t ts ih =>
    intro h
    obtain ⟨vs, e1, e2⟩ := h t List.mem_cons_self
    obtain ⟨us, f1, f2⟩ := ih (fun u hu => h u (List.mem_cons_of_mem _ hu))
    refine ⟨⟨t.name, vs⟩ :: us, ?_, List.Forall₂.cons ⟨rfl, e2⟩ f2⟩
    unfold redo
    rw [e1]; dsimp only
    rw [f1]

/-- A saved imported trace: named as asked, and at every point of the axis on the curve of the trace in the file it comes from. -/
def Brought (new : List ℚ) (r : Request V) (u : Wave V) : Prop :=
  NamedAs r.tag r.name u.name ∧ ∃ d, r.source.traces.lookup r.name = some d ∧
    List.Forall₂ (OnCurve (Axis0 r.source) (d.getD 0 [])) new u.data

theorem bring_ok {new : List ℚ} {reqs : List (Request V)} {ps : List (Pending V)} (h : List.Forall₂ Waits reqs ps)
    (hi : ∀ r ∈ reqs, ∀ d, r.source.traces.lookup r.name = some d →
      ∃ vs, interpolate (d.getD 0 []) (Axis0 r.source) new = .ok vs ∧ List.Forall₂ (OnCurve (Axis0 r.source) (d.getD 0 [])) new vs) :
    ∃ us, bring new ps = .ok us ∧ List.Forall₂ (Brought new) reqs us := by
  induction h with
  | nil => exact ⟨[], rfl, List.Forall₂.nil⟩
  | @cons r p rs ps h1 _ ih =>
    obtain ⟨us, f1, f2⟩ := ih (fun r' hr' => hi r' (List.mem_cons_of_mem _ hr'))
    obtain ⟨g1, g2, g3, g4, d, g5, g6⟩ := h1
    obtain ⟨vs, e1, e2⟩ := hi r List.mem_cons_self d g5
    refine ⟨⟨p.name, vs⟩ :: us, ?_, List.Forall₂.cons ⟨g3, d, g5, e2⟩ f2⟩
    unfold bring
    rw [g4, g6, e1]; dsimp only
    rw [f1]

/-- C81: saving after any number of aligned imports (step 0, all axes beginning at the same point) writes one strictly increasing axis,
the traces that were in the file under their names, and one trace for each request, named as asked; at every point of the new axis
each trace lies on the curve through its own original points. (The number of points has to change: see `C81_same_length_not_resampled`.) -/
theorem C81_saved (adm x0 : ℚ) (hadm : 0 < adm) (w0 w : File V) (axis : List ℚ) (reqs : List (Request V)) (hs : Session adm w0 reqs w)
    (h0 : w0.axis = some axis) (hr : Rising axis) (hx : axis.head? = some x0) (hfull : ∀ t ∈ w0.traces, t.data.length = axis.length)
    (hm : ∀ r ∈ reqs, Mergeable adm x0 r.source) (hnd : (reqs.map (fun r => (r.source.id, r.name))).Nodup) (hne : reqs ≠ [])
    (hlen : w.newAxis.length ≠ axis.length) :
    ∃ new old more, consolidate w = .ok { w with axis := some new, traces := old ++ more, newAxis := [], pending := [] } ∧
      Rising new ∧ new.head? = some x0 ∧
      List.Forall₂ (fun (t u : Wave V) => u.name = t.name ∧ List.Forall₂ (OnCurve axis t.data) new u.data) w0.traces old ∧
      List.Forall₂ (Brought new) reqs more := by
  have inv := session_inv hadm h0 hr hx hs hm hnd
  rcases inv.merged with ⟨i1, _⟩ | ⟨i1, i2, i3, i4⟩
  · exact absurd i1 hne
  · obtain ⟨us, e1, e2⟩ := redo_ok (axis := axis) (new := w.newAxis) w.traces (by
      intro t ht
      rw [inv.traces] at ht
      exact inside_curve hx (hfull t ht) i2 i1 i3)
    obtain ⟨vs, f1, f2⟩ := bring_ok (new := w.newAxis) inv.waits (by
      intro r hr' d hd
      have mo := hm r hr'
      exact inside_curve mo.start (mo.full r.name d hd) i2 i1 (fun p hp z hz => i4 p hp r hr' z hz))
    refine ⟨w.newAxis, us, vs, ?_, i1, i2, by rw [← inv.traces]; exact e2, f2⟩
    unfold consolidate
    rw [inv.base]; dsimp only
    rw [if_neg, if_pos hlen, e1]
    · dsimp only
      rw [f1]
    · rintro (h | h)
      · rw [h] at i2; cases i2
      · have := inv.waits; rw [h] at this
        cases this
        exact hne rfl

/-- The trace as it is in the source, in one step. -/
def Copied (opt : Options) (o : Source V) (n : Str) (u : Wave V) : Prop :=
  NamedAs opt.tag n u.name ∧ ∃ d, o.traces.lookup n = some d ∧ u.data = d.getD opt.step []

theorem each_copy (opt : Options) (o : Source V) : ∀ (names : List Str) (w : File V), (∀ n ∈ names, ∃ d, o.traces.lookup n = some d) →
    ∃ us, each (copyIn opt o) names w = .ok { w with traces := w.traces ++ us } ∧ List.Forall₂ (Copied opt o) names us := by
  intro names
  induction names with
  | nil => intro w _; exact ⟨[], by simp [each], List.Forall₂.nil⟩
  | cons n ns ih =>
    intro w h
    obtain ⟨d, hd⟩ := h n List.mem_cons_self
    have h1 : copyIn opt o w n = .ok { w with traces := w.traces ++ [⟨rename opt.tag n, d.getD opt.step []⟩] } := by
      unfold copyIn Source.trace
      rw [hd]
    obtain ⟨us, e1, e2⟩ := ih { w with traces := w.traces ++ [⟨rename opt.tag n, d.getD opt.step []⟩] }
      (fun m hm => h m (List.mem_cons_of_mem _ hm))
    refine ⟨⟨rename opt.tag n, d.getD opt.step []⟩ :: us, ?_, List.Forall₂.cons ⟨(C81_names _ _ _).mp rfl, d, hd, rfl⟩ e2⟩
    unfold each
    rw [h1]; dsimp only
    rw [e1]
    simp

theorem each_missing (f : File V → Str → Except Err (File V)) (n : Str) (e : Err) (hf : ∀ w, f w n = .error e) :
    ∀ (names : List Str) (w : File V), n ∈ names → ∃ e', each f names w = .error e' := by
  intro names
  induction names with
  | nil => intro w h; cases h
  | cons m ms ih =>
    intro w h
    unfold each
    cases hm : f w m with
    | error e' => exact ⟨e', rfl⟩
    | ok w' =>
      rcases List.mem_cons.mp h with rfl | h
      · rw [hf] at hm; cases hm
      · exact ih w' h

/-- C81: the first import into an empty file takes over the axis of the source (of the chosen step) and copies the samples. -/
theorem C81_first_import (opt : Options) (o : Source V) (names : List Str) (w : File V) (h0 : w.axis = none)
    (hn : ∀ n ∈ names, ∃ d, o.traces.lookup n = some d) :
    ∃ us, addTraces opt o names w = .ok { w with complex := o.complex, axisName := o.axisName, axisType := o.axisType, axis := some (o.axis.getD opt.step []), traces := w.traces ++ us } ∧
      List.Forall₂ (Copied opt o) names us := by
  obtain ⟨us, e1, e2⟩ := each_copy opt o names
    { w with complex := o.complex, axisName := o.axisName, axisType := o.axisType, axis := some (o.axis.getD opt.step []) } hn
  refine ⟨us, ?_, e2⟩
  unfold addTraces importPlain
  rw [h0]; dsimp only
  rw [if_pos rfl]
  exact e1

/-- C81: without alignment the samples of the chosen step are copied when both axes have the same number of points, and the import is
refused when they have not. -/
theorem C81_plain_import (opt : Options) (o : Source V) (names : List Str) (w : File V) (axis : List ℚ) (h0 : w.axis = some axis)
    (ha : opt.align = false) (hc : w.complex = o.complex) (ht : w.axisType = o.axisType) (hne : names ≠ [])
    (hn : ∀ n ∈ names, ∃ d, o.traces.lookup n = some d) :
    (axis.length = (o.axis.getD opt.step []).length → ∃ us, addTraces opt o names w = .ok { w with traces := w.traces ++ us } ∧
      List.Forall₂ (Copied opt o) names us) ∧
    (axis.length ≠ (o.axis.getD opt.step []).length → addTraces opt o names w = .error .assertion) := by
  have hb : addTraces opt o names w = importPlain opt o names axis w := by
    unfold addTraces
    rw [h0]; dsimp only
    rw [if_neg (by simp [hc]), if_neg (by simp [ht]), if_neg hne, ha]
    rfl
  rw [hb]
  unfold importPlain
  refine ⟨fun h => ?_, fun h => by rw [if_neg h]⟩
  rw [if_pos h]
  exact each_copy opt o names w hn

/-- C81: traces of another numerical type or over another kind of axis are refused, and so are names the source does not have. -/
theorem C81_refused (opt : Options) (o : Source V) (names : List Str) (w : File V) (axis : List ℚ) (h0 : w.axis = some axis) :
    (w.complex ≠ o.complex ∨ w.axisType ≠ o.axisType → addTraces opt o names w = .error .value) ∧
    ((∃ n ∈ names, o.traces.lookup n = none) → ∃ e, addTraces opt o names w = .error e) := by
  refine ⟨fun h => ?_, ?_⟩
  · unfold addTraces
    rw [h0]; dsimp only
    by_cases hc : w.complex ≠ o.complex
    · rw [if_pos hc]
    · rw [if_neg hc, if_pos (h.resolve_left hc)]
  · rintro ⟨n, hn, hl⟩
    unfold addTraces
    rw [h0]; dsimp only
    split_ifs with c1 c2 c3 c4
    · exact ⟨_, rfl⟩
    · exact ⟨_, rfl⟩
    · rw [c3] at hn; cases hn
    · unfold importAligned
      exact each_missing _ n .index (fun w => by unfold pend Source.trace; rw [hl]) names _ hn
    · unfold importPlain
      split_ifs
      · exact each_missing _ n .index (fun w => by unfold copyIn Source.trace; rw [hl]) names _ hn
      · exact ⟨_, rfl⟩

/-! ### Samples and limits -/

/-- A transient file with one trace. -/
def base (axis data : List ℚ) : File ℚ := ⟨false, "time".toList, "time".toList, some axis, [⟨"V(a)".toList, data⟩], [], []⟩

def source (id : Nat) (axis : List (List ℚ)) (data : List (List ℚ)) : Source ℚ := ⟨id, false, "time".toList, "time".toList, axis, [("V(b)".toList, data)]⟩

/-- Importing V(b) from each source with alignment and a tag, then saving: the axis and the traces. -/
def session (adm : ℚ) (step : Nat) : List (Source ℚ × Str) → File ℚ → Option (Option (List ℚ) × List (Wave ℚ))
  | [], w => match consolidate w with | .ok f => some (f.axis, f.traces) | .error _ => none
  | (o, t) :: os, w =>
    match addTraces ⟨true, adm, step, some t⟩ o ["V(b)".toList] w with
    | .error _ => none
    | .ok w' => session adm step os w'

/-- C81 sample: two imports with different axes. -/
theorem C81_sample : session (1/1000) 0 [(source 1 [[0, 2, 6, 9]] [[0, 20, 60, 90]], "1".toList), (source 2 [[0, 3, 5, 6, 7]] [[0, -3, -5, -6, -7]], "2".toList)]
      (base [0, 1, 4, 8] [0, 2, 8, 16]) =
    some (some [0, 1, 2], [⟨"V(a)".toList, [0, 2, 4]⟩, ⟨"V(b_1)".toList, [0, 10, 20]⟩, ⟨"V(b_2)".toList, [0, -1, -2]⟩]) := by
  decide +kernel

theorem C81_sample_names : rename (some "7".toList) "V(out)".toList = "V(out_7)".toList ∧ rename (some "7".toList) "Ix(X1:1)".toList = "Ix(X1:1)_7".toList ∧
    rename none "I(R1)".toList = "I(R1)".toList := by decide +kernel

/-- The hypotheses of `C81_saved` are met by the first import of the sample. -/
theorem C81_saved_applies : ∃ w : File ℚ, Session (1/1000) (base [0, 1, 4, 8] [0, 2, 8, 16]) [⟨source 1 [[0, 2, 6, 9]] [[0, 20, 60, 90]], "V(b)".toList, some "1".toList⟩] w ∧
    Mergeable (1/1000) 0 (source 1 [[0, 2, 6, 9]] [[0, 20, 60, 90]]) ∧ Rising [0, 1, 4, 8] ∧ w.newAxis = [0, 1, 2, 4] := by
  refine ⟨{ base [0, 1, 4, 8] [0, 2, 8, 16] with newAxis := [0, 1, 2, 4], pending := [⟨1, "V(b)".toList, "V(b_1)".toList, [0, 20, 60, 90], [0, 2, 6, 9]⟩] }, ?_, ?_, ?_, rfl⟩
  · refine Session.more (reqs := []) (source 1 [[0, 2, 6, 9]] [[0, 20, 60, 90]]) ["V(b)".toList] (some "1".toList) (Session.start rfl rfl) ?_ (by simp)
    have hm : mergeAxes (1/1000) [0, 1, 4, 8] [0, 2, 6, 9] = [0, 1, 2, 4] := by decide +kernel
    have hr : rename (some "1".toList) "V(b)".toList = "V(b_1)".toList := by decide +kernel
    show importAligned _ _ _ _ _ = _
    unfold importAligned
    show each _ ["V(b)".toList] { base [0, 1, 4, 8] [0, 2, 8, 16] with newAxis := mergeAxes (1/1000) [0, 1, 4, 8] [0, 2, 6, 9] } = _
    rw [hm]
    show Except.ok _ = Except.ok _
    rw [hr]
    rfl
  · refine ⟨rfl, ?_, ?_⟩
    · intro k x y hx hy
      match k with
      | 0 => cases hx; cases hy; norm_num
      | 1 => cases hx; cases hy; norm_num
      | 2 => cases hx; cases hy; norm_num
      | k + 3 => cases hy
    · intro n d h
      simp only [source, List.lookup] at h
      split at h
      · injection h with h; rw [← h]; rfl
      · cases h
  · unfold Rising; decide +kernel

/-- Limit: also with equal axes the last point of every trace is lost. -/
theorem C81_last_point_lost : session (1/1000) 0 [(source 1 [[0, 1, 2]] [[5, 6, 7]], "1".toList)] (base [0, 1, 2] [1, 2, 3]) =
    some (some [0, 1], [⟨"V(a)".toList, [1, 2]⟩, ⟨"V(b_1)".toList, [5, 6]⟩]) := by decide +kernel

/-- Limit: when the merged axis happens to have as many points as the old one, the traces that were in the file keep their samples
although the points have moved: V(a) is 2t before and takes the value 4 at t = 1 afterwards. -/
theorem C81_same_length_not_resampled : session (1/1000) 0 [(source 1 [[0, 1, 3/2, 4]] [[0, 1, 2, 3]], "1".toList)] (base [0, 2, 4] [0, 4, 8]) =
    some (some [0, 1, 3/2], [⟨"V(a)".toList, [0, 4, 8]⟩, ⟨"V(b_1)".toList, [0, 1, 2]⟩]) := by decide +kernel

/-- Limit: an aligned import of another step saves the samples of step 0. -/
theorem C81_aligned_step_ignored : session (1/1000) 1 [(source 1 [[0, 1, 2, 3], [0, 1, 2, 3]] [[0, 0, 0, 0], [5, 6, 7, 8]], "1".toList)] (base [0, 1, 2, 3] [1, 2, 3, 4]) =
    some (some [0, 1, 2], [⟨"V(a)".toList, [1, 2, 3]⟩, ⟨"V(b_1)".toList, [0, 0, 0]⟩]) := by decide +kernel

/-- Limit: an aligned import from a file with a single point is dropped without an error. -/
theorem C81_single_point_dropped : session (1/1000) 0 [(source 1 [[0]] [[5]], "1".toList)] (base [0, 1, 2, 3] [1, 2, 3, 4]) =
    some (some [0, 1, 2, 3], [⟨"V(a)".toList, [1, 2, 3, 4]⟩]) := by decide +kernel

/-- Limit: importing the same trace of the same source twice gives both copies the last name. -/
theorem C81_same_trace_twice : session (1/1000) 0 [(source 1 [[0, 1, 2]] [[5, 6, 7]], "1".toList), (source 1 [[0, 1, 2]] [[5, 6, 7]], "2".toList)] (base [0, 1, 2, 3] [1, 2, 3, 4]) =
    some (some [0], [⟨"V(a)".toList, [1]⟩, ⟨"V(b_2)".toList, [5]⟩, ⟨"V(b_2)".toList, [5]⟩]) := by decide +kernel

/-- Limit: when points of the added axis are closer than the admissible error, the merged axis may go back. -/
theorem C81_dense_axis_not_rising : mergeAxes (1/10) [0, 1, 2, 3] [0, 95/100, 99/100, 2, 3] = [0, 1, 99/100, 2] := by decide +kernel

end Props.RawMerge
