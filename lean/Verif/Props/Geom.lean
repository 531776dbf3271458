import Verif.Model.Geom
import Verif.Spec.Segment
import Mathlib.Tactic.Ring
import Mathlib.Tactic.Linarith
import Mathlib.Tactic.FieldSimp
import Mathlib.Tactic.Push
import Mathlib.Data.List.Nodup
import Mathlib.Data.List.Count
import Mathlib.Algebra.Order.Field.Basic
import Mathlib.Logic.Function.Iterate
/-
C45: touching and intercepting wires. C59: scaling a schematic.
-/
namespace Props.Geom
open Model.Geom Spec.Segment

/-- The point lies on the closed segment between the two ends of the line. -/
def On (l : Seg) (p : Pt) : Prop := OnSegment l.v1.x l.v1.y l.v2.x l.v2.y p.x p.y

/-- The line with its ends exchanged. -/
def flip (l : Seg) : Seg := ⟨l.v2, l.v1⟩

/-- A horizontal or vertical line (or a single point). -/
def Axis (l : Seg) : Prop := l.v1.x = l.v2.x ∨ l.v1.y = l.v2.y

theorem between_iff {a b c : ℚ} : (min a b ≤ c ∧ c ≤ max a b) ↔ ∃ t : ℚ, 0 ≤ t ∧ t ≤ 1 ∧ c = a + t * (b - a) := by
  constructor
  · rintro ⟨h1, h2⟩
    by_cases hab : a = b
    · subst hab
      simp only [min_self, max_self] at h1 h2
      exact ⟨0, le_refl _, by norm_num, by linarith⟩
    · have hne : b - a ≠ 0 := fun h => hab (by linarith)
      refine ⟨(c - a) / (b - a), ?_, ?_, ?_⟩
      · rcases lt_or_gt_of_ne hab with h | h
        · rw [min_eq_left h.le] at h1
          exact div_nonneg (by linarith) (by linarith)
        · rw [max_eq_left h.le] at h2
          exact div_nonneg_of_nonpos (by linarith) (by linarith)
      · rcases lt_or_gt_of_ne hab with h | h
        · rw [max_eq_right h.le] at h2
          rw [div_le_one (by linarith)]; linarith
        · rw [min_eq_right h.le] at h1
          rw [div_le_one_of_neg (by linarith)]; linarith
      · field_simp; ring
  · rintro ⟨t, h0, h1, rfl⟩
    rcases le_total a b with h | h
    · rw [min_eq_left h, max_eq_right h]
      have := mul_nonneg h0 (by linarith : 0 ≤ b - a)
      have := mul_nonneg (by linarith : 0 ≤ 1 - t) (by linarith : 0 ≤ b - a)
      constructor <;> nlinarith
    · rw [min_eq_right h, max_eq_left h]
      have := mul_nonneg h0 (by linarith : 0 ≤ a - b)
      have := mul_nonneg (by linarith : 0 ≤ 1 - t) (by linarith : 0 ≤ a - b)
      constructor <;> nlinarith

/-! ### C45 -/

/-- C45: for horizontal and vertical lines, whatever the rounding of the arithmetic, touches says whether the point lies on
the closed segment. -/
theorem C45_touches_axis (fl : ℚ → ℚ) (l : Seg) (p : Pt) (h : Axis l) : touches fl l p = true ↔ On l p := by
  unfold touches On OnSegment
  by_cases hx : l.v1.x = l.v2.x
  · rw [if_pos hx]
    by_cases hp : l.v1.x = p.x
    · rw [if_pos hp, decide_eq_true_iff, between_iff]
      constructor
      · rintro ⟨t, h0, h1, ht⟩; exact ⟨t, h0, h1, by rw [← hx, ← hp]; ring, ht⟩
      · rintro ⟨t, h0, h1, _, ht⟩; exact ⟨t, h0, h1, ht⟩
    · rw [if_neg hp]
      simp only [Bool.false_eq_true, false_iff]
      rintro ⟨t, _, _, hq, _⟩; exact hp (by rw [hq, ← hx]; ring)
  · have hy := h.resolve_left hx
    rw [if_neg hx, if_pos hy]
    by_cases hp : l.v1.y = p.y
    · rw [if_pos hp, decide_eq_true_iff, between_iff]
      constructor
      · rintro ⟨t, h0, h1, ht⟩; exact ⟨t, h0, h1, ht, by rw [← hy, ← hp]; ring⟩
      · rintro ⟨t, h0, h1, ht, _⟩; exact ⟨t, h0, h1, ht⟩
    · rw [if_neg hp]
      simp only [Bool.false_eq_true, false_iff]
      rintro ⟨t, _, _, _, hq⟩; exact hp (by rw [hq, ← hy]; ring)

/-- C45: in exact arithmetic touches says for every line whether the point lies on the closed segment. -/
theorem C45_touches_exact (l : Seg) (p : Pt) : touches id l p = true ↔ On l p := by
  by_cases ha : Axis l
  · exact C45_touches_axis id l p ha
  · have hx : ¬ l.v1.x = l.v2.x := fun h => ha (Or.inl h)
    have hy : ¬ l.v1.y = l.v2.y := fun h => ha (Or.inr h)
    have hd : l.v2.x - l.v1.x ≠ 0 := fun h => hx (by linarith)
    unfold touches On OnSegment
    rw [if_neg hx, if_neg hy]
    simp only [id]
    by_cases he : (l.v2.y - l.v1.y) / (l.v2.x - l.v1.x) * p.x + (l.v1.y - (l.v2.y - l.v1.y) / (l.v2.x - l.v1.x) * l.v1.x) = p.y
    · rw [if_pos he, decide_eq_true_iff, between_iff]
      constructor
      · rintro ⟨t, h0, h1, ht⟩
        refine ⟨t, h0, h1, ht, ?_⟩
        rw [← he, ht]; field_simp; ring
      · rintro ⟨t, h0, h1, ht, _⟩; exact ⟨t, h0, h1, ht⟩
    · rw [if_neg he]
      simp only [Bool.false_eq_true, false_iff]
      rintro ⟨t, h0, h1, ht, hq⟩
      apply he; rw [ht, hq]; field_simp; ring

theorem on_flip (l : Seg) (p : Pt) : On (flip l) p ↔ On l p := by
  unfold On OnSegment flip
  constructor
  · rintro ⟨t, h0, h1, hx, hy⟩; exact ⟨1 - t, by linarith, by linarith, by rw [hx]; ring, by rw [hy]; ring⟩
  · rintro ⟨t, h0, h1, hx, hy⟩; exact ⟨1 - t, by linarith, by linarith, by rw [hx]; ring, by rw [hy]; ring⟩

/-- C45: the direction of a horizontal or vertical line plays no part, whatever the rounding. -/
theorem C45_direction_axis (fl : ℚ → ℚ) (l : Seg) (p : Pt) (h : Axis l) : touches fl (flip l) p = touches fl l p := by
  have h' : Axis (flip l) := h.imp Eq.symm Eq.symm
  rw [Bool.eq_iff_iff, C45_touches_axis fl l p h, C45_touches_axis fl (flip l) p h', on_flip]

/-- C45: in exact arithmetic the direction of no line plays a part. -/
theorem C45_direction_exact (l : Seg) (p : Pt) : touches id (flip l) p = touches id l p := by
  rw [Bool.eq_iff_iff, C45_touches_exact, C45_touches_exact, on_flip]

/-- C45 (finding): with the floating point numbers Python uses, an oblique line need not touch its own end, and whether it does
depends on its direction. -/
theorem C45_oblique_witness :
    ∃ l : Seg, ¬ Axis l ∧ touches binary64 l l.v2 = false ∧ touches binary64 (flip l) l.v2 = true ∧ On l l.v2 := by
  refine ⟨⟨⟨0, 0⟩, ⟨49, 1⟩⟩, ?_, by decide +kernel, by decide +kernel, ?_⟩
  · unfold Axis; norm_num
  · exact ⟨1, by norm_num, by norm_num, by norm_num, by norm_num⟩

/-- C45: intercepts is symmetric, whatever the rounding. -/
theorem C45_intercepts_symmetric (fl : ℚ → ℚ) (a b : Seg) : intercepts fl a b = intercepts fl b a := by
  unfold intercepts
  cases touches fl a b.v1 <;> cases touches fl a b.v2 <;> cases touches fl b a.v1 <;> cases touches fl b a.v2 <;> rfl

/-- C45: for horizontal and vertical wires intercepts says whether an end of one of the two lies on the other, whatever the
rounding. -/
theorem C45_intercepts_axis (fl : ℚ → ℚ) (a b : Seg) (ha : Axis a) (hb : Axis b) :
    intercepts fl a b = true ↔ ∃ p : Pt, On a p ∧ On b p ∧ (p = a.v1 ∨ p = a.v2 ∨ p = b.v1 ∨ p = b.v2) := by
  have e1 : ∀ l : Seg, On l l.v1 := fun l => ⟨0, le_refl _, by norm_num, by ring, by ring⟩
  have e2 : ∀ l : Seg, On l l.v2 := fun l => ⟨1, by norm_num, le_refl _, by ring, by ring⟩
  unfold intercepts
  simp only [Bool.or_eq_true, C45_touches_axis fl a _ ha, C45_touches_axis fl b _ hb]
  constructor
  · rintro (((h | h) | h) | h)
    · exact ⟨b.v1, h, e1 b, by simp⟩
    · exact ⟨b.v2, h, e2 b, by simp⟩
    · exact ⟨a.v1, e1 a, h, by simp⟩
    · exact ⟨a.v2, e2 a, h, by simp⟩
  · rintro ⟨p, h1, h2, rfl | rfl | rfl | rfl⟩ <;> simp [h1, h2]

/-- C45: in exact arithmetic the same is true of all lines. -/
theorem C45_intercepts_exact (a b : Seg) :
    intercepts id a b = true ↔ ∃ p : Pt, On a p ∧ On b p ∧ (p = a.v1 ∨ p = a.v2 ∨ p = b.v1 ∨ p = b.v2) := by
  have e1 : ∀ l : Seg, On l l.v1 := fun l => ⟨0, le_refl _, by norm_num, by ring, by ring⟩
  have e2 : ∀ l : Seg, On l l.v2 := fun l => ⟨1, by norm_num, le_refl _, by ring, by ring⟩
  unfold intercepts
  simp only [Bool.or_eq_true, C45_touches_exact]
  constructor
  · rintro (((h | h) | h) | h)
    · exact ⟨b.v1, h, e1 b, by simp⟩
    · exact ⟨b.v2, h, e2 b, by simp⟩
    · exact ⟨a.v1, e1 a, h, by simp⟩
    · exact ⟨a.v2, e2 a, h, by simp⟩
  · rintro ⟨p, h1, h2, rfl | rfl | rfl | rfl⟩ <;> simp [h1, h2]

/-- C45: two horizontal wires at the same height intercept each other exactly when they have a point in common. -/
theorem C45_collinear (fl : ℚ → ℚ) (a b : Seg) (ha : a.v1.y = a.v2.y) (hb : b.v1.y = b.v2.y) :
    intercepts fl a b = true ↔ ∃ p : Pt, On a p ∧ On b p := by
  rw [C45_intercepts_axis fl a b (Or.inr ha) (Or.inr hb)]
  constructor
  · rintro ⟨p, h1, h2, _⟩; exact ⟨p, h1, h2⟩
  · rintro ⟨p, h1, h2⟩
    have t := C45_touches_axis (fun x => x)
    -- on a horizontal line, being on it is being between the ends
    have hor : ∀ (l : Seg), l.v1.y = l.v2.y → ∀ q : Pt, On l q ↔ q.y = l.v1.y ∧ min l.v1.x l.v2.x ≤ q.x ∧ q.x ≤ max l.v1.x l.v2.x := by
      intro l hl q
      rw [between_iff]; unfold On OnSegment
      constructor
      · rintro ⟨t, h0, h1, hx, hy⟩; exact ⟨by rw [hy, ← hl]; ring, t, h0, h1, hx⟩
      · rintro ⟨hy, t, h0, h1, hx⟩; exact ⟨t, h0, h1, hx, by rw [hy, ← hl]; ring⟩
    rw [hor a ha] at h1; rw [hor b hb] at h2
    simp only [hor a ha, hor b hb]
    obtain ⟨hy1, l1, u1⟩ := h1
    obtain ⟨hy2, l2, u2⟩ := h2
    have hh : a.v1.y = b.v1.y := hy1.symm.trans hy2
    -- the larger of the two left ends is on both
    rcases le_total (min a.v1.x a.v2.x) (min b.v1.x b.v2.x) with h | h
    · have hb' : min b.v1.x b.v2.x ≤ max a.v1.x a.v2.x := l2.trans u1
      rcases min_choice b.v1.x b.v2.x with e | e
      · exact ⟨b.v1, ⟨hh.symm, by rw [← e]; exact h, by rw [← e]; exact hb'⟩, ⟨rfl, min_le_left _ _, le_max_left _ _⟩, by simp⟩
      · exact ⟨b.v2, ⟨by rw [← hb, hh], by rw [← e]; exact h, by rw [← e]; exact hb'⟩, ⟨hb.symm, min_le_right _ _, le_max_right _ _⟩, by simp⟩
    · have ha' : min a.v1.x a.v2.x ≤ max b.v1.x b.v2.x := l1.trans u2
      rcases min_choice a.v1.x a.v2.x with e | e
      · exact ⟨a.v1, ⟨rfl, min_le_left _ _, le_max_left _ _⟩, ⟨hh, by rw [← e]; exact h, by rw [← e]; exact ha'⟩, by simp⟩
      · exact ⟨a.v2, ⟨ha.symm, min_le_right _ _, le_max_right _ _⟩, ⟨by rw [← ha, hh], by rw [← e]; exact h, by rw [← e]; exact ha'⟩, by simp⟩

/-- C45 (finding): two wires that cross do not intercept each other. -/
theorem C45_crossing_witness :
    ∃ (a b : Seg) (p : Pt), On a p ∧ On b p ∧ ∀ fl : ℚ → ℚ, intercepts fl a b = false := by
  refine ⟨⟨⟨0, 16⟩, ⟨32, 16⟩⟩, ⟨⟨16, 0⟩, ⟨16, 32⟩⟩, ⟨16, 16⟩, ?_, ?_, ?_⟩
  · exact ⟨1/2, by norm_num, by norm_num, by norm_num, by norm_num⟩
  · exact ⟨1/2, by norm_num, by norm_num, by norm_num, by norm_num⟩
  · intro fl
    unfold intercepts touches
    norm_num

example : Axis ⟨⟨0, 16⟩, ⟨32, 16⟩⟩ ∧ touches binary64 ⟨⟨0, 16⟩, ⟨32, 16⟩⟩ ⟨7, 16⟩ = true :=
  ⟨Or.inr rfl, by decide +kernel⟩
example : touches id ⟨⟨0, 0⟩, ⟨32, 16⟩⟩ ⟨8, 4⟩ = true := by decide +kernel


/-! ### C59: scaling -/

/-- The coordinates of everything in a schematic, as a user sees them. -/
structure View where
  comps : List Pt
  wires : List (Pt × Pt)
  labels : List Pt
  directives : List Pt
  ports : List Pt
  lines : List (Pt × Pt)
  shapes : List (List Pt)

def view (s : Sch) : View :=
  { comps := s.comps.map s.heap, wires := s.wires.map (fun w => (s.heap w.1, s.heap w.2)), labels := s.labels.map s.heap,
    directives := s.directives.map s.heap, ports := s.ports.map s.heap,
    lines := s.lines.map (fun w => (s.heap w.1, s.heap w.2)), shapes := s.shapes.map (fun l => l.map s.heap) }

/-- Every coordinate replaced. -/
def mapView (f : Pt → Pt) (v : View) : View :=
  { comps := v.comps.map f, wires := v.wires.map (fun w => (f w.1, f w.2)), labels := v.labels.map f,
    directives := v.directives.map f, ports := v.ports.map f,
    lines := v.lines.map (fun w => (f w.1, f w.2)), shapes := v.shapes.map (fun l => l.map f) }

theorem fold_iterate (fl : ℚ → ℚ) (k : Scaling) (l : List Nat) (h : Nat → Pt) (i : Nat) :
    (l.foldl (moveAt fl k) h) i = (move fl k)^[l.count i] (h i) := by
  induction l generalizing h with
  | nil => rfl
  | cons a l ih =>
    rw [List.foldl_cons, ih]
    by_cases e : a = i
    · subst e
      rw [List.count_cons_self, Function.iterate_succ_apply]
      simp [moveAt]
    · rw [List.count_cons_of_ne e]
      have : moveAt fl k h a i = h i := by unfold moveAt; rw [if_neg (Ne.symm e)]
      rw [this]

/-- C59: a point is moved as often as it is held by something in the schematic. -/
theorem C59_moved_as_often_as_held (fl : ℚ → ℚ) (k : Scaling) (s : Sch) (i : Nat) :
    (scale fl k s).heap i = (move fl k)^[(visits s).count i] (s.heap i) := fold_iterate fl k _ _ i

theorem visits_comp {s : Sch} {a : Nat} (h : a ∈ s.comps) : a ∈ visits s := by simp [visits, h]
theorem visits_wire {s : Sch} {w : Nat × Nat} (h : w ∈ s.wires) : w.1 ∈ visits s ∧ w.2 ∈ visits s := by
  simp only [visits, List.mem_append, List.mem_flatMap]
  exact ⟨Or.inl (Or.inl (Or.inl (Or.inl (Or.inl (Or.inr ⟨w, h, by simp⟩))))), Or.inl (Or.inl (Or.inl (Or.inl (Or.inl (Or.inr ⟨w, h, by simp⟩)))))⟩
theorem visits_label {s : Sch} {a : Nat} (h : a ∈ s.labels) : a ∈ visits s := by simp [visits, h]
theorem visits_directive {s : Sch} {a : Nat} (h : a ∈ s.directives) : a ∈ visits s := by simp [visits, h]
theorem visits_port {s : Sch} {a : Nat} (h : a ∈ s.ports) : a ∈ visits s := by simp [visits, h]
theorem visits_line {s : Sch} {w : Nat × Nat} (h : w ∈ s.lines) : w.1 ∈ visits s ∧ w.2 ∈ visits s := by
  simp only [visits, List.mem_append, List.mem_flatMap]
  exact ⟨Or.inl (Or.inr ⟨w, h, by simp⟩), Or.inl (Or.inr ⟨w, h, by simp⟩)⟩
theorem visits_shape {s : Sch} {l : List Nat} {a : Nat} (h : l ∈ s.shapes) (ha : a ∈ l) : a ∈ visits s := by
  simp only [visits, List.mem_append, List.mem_flatten]
  exact Or.inr ⟨l, h, ha⟩

/-- If no point object is held twice, scaling moves everything once: the view of the scaled schematic is the scaled view. -/
theorem view_scale (fl : ℚ → ℚ) (k : Scaling) (s : Sch) (h : (visits s).Nodup) : view (scale fl k s) = mapView (move fl k) (view s) := by
  have key : ∀ a : Nat, a ∈ visits s → (scale fl k s).heap a = move fl k (s.heap a) := by
    intro a ha
    rw [C59_moved_as_often_as_held, List.count_eq_one_of_mem h ha]; rfl
  unfold view mapView
  simp only [List.map_map, View.mk.injEq]
  refine ⟨?_, ?_, ?_, ?_, ?_, ?_, ?_⟩
  · exact List.map_congr_left (fun a ha => key a (visits_comp ha))
  · exact List.map_congr_left (fun w hw => by simp [key _ (visits_wire hw).1, key _ (visits_wire hw).2])
  · exact List.map_congr_left (fun a ha => key a (visits_label ha))
  · exact List.map_congr_left (fun a ha => key a (visits_directive ha))
  · exact List.map_congr_left (fun a ha => key a (visits_port ha))
  · exact List.map_congr_left (fun w hw => by simp [key _ (visits_line hw).1, key _ (visits_line hw).2])
  · refine List.map_congr_left (fun l hl => ?_)
    simp only [Function.comp, List.map_map]
    exact List.map_congr_left (fun a ha => key a (visits_shape hl ha))

/-- Something that brings its own points. -/
def Fresh : Add → Prop
  | .iopin => False
  | .place _ => False
  | _ => True

theorem allocAll_spec (ps : List Pt) (s : Sch) :
    (allocAll s ps).1.fresh = s.fresh + ps.length ∧ (allocAll s ps).2 = List.range' s.fresh ps.length ∧
    visits (allocAll s ps).1 = visits s ∧ (allocAll s ps).1.comps = s.comps ∧ (allocAll s ps).1.wires = s.wires ∧
    (allocAll s ps).1.labels = s.labels ∧ (allocAll s ps).1.directives = s.directives ∧ (allocAll s ps).1.ports = s.ports ∧
    (allocAll s ps).1.lines = s.lines ∧ (allocAll s ps).1.shapes = s.shapes := by
  induction ps generalizing s with
  | nil => simp [allocAll]
  | cons p ps ih =>
    obtain ⟨h1, h2, h3, h4, h5, h6, h7, h8, h9, h10⟩ := ih (alloc s p)
    refine ⟨?_, ?_, ?_, ?_, ?_, ?_, ?_, ?_, ?_, ?_⟩
    · show (allocAll (alloc s p) ps).1.fresh = _
      rw [h1]; simp [alloc]; omega
    · show s.fresh :: (allocAll (alloc s p) ps).2 = _
      rw [h2]; simp [alloc, List.range'_succ]
    · exact h3
    · exact h4
    · exact h5
    · exact h6
    · exact h7
    · exact h8
    · exact h9
    · exact h10

/-- The points held after adding something are, up to their order, the points held before and new ones. -/
theorem add_visits (s : Sch) (a : Add) (h : Fresh a) :
    ∃ n : Nat, (add s a).fresh = s.fresh + n ∧ (visits (add s a)).Perm (visits s ++ List.range' s.fresh n) := by
  cases a with
  | comp p => exact ⟨1, rfl, by simp only [List.perm_iff_count]; intro c; simp [add, alloc, visits, List.count_append, List.count_cons]; omega⟩
  | wire p q => exact ⟨2, rfl, by simp only [List.perm_iff_count]; intro c; simp [add, alloc, visits, List.count_append, List.count_cons, List.range'_succ]; omega⟩
  | label p => exact ⟨1, rfl, by simp only [List.perm_iff_count]; intro c; simp [add, alloc, visits, List.count_append, List.count_cons]; omega⟩
  | directive p => exact ⟨1, rfl, by simp only [List.perm_iff_count]; intro c; simp [add, alloc, visits, List.count_append, List.count_cons]; omega⟩
  | iopin => exact absurd h id
  | line p q => exact ⟨2, rfl, by simp only [List.perm_iff_count]; intro c; simp [add, alloc, visits, List.count_append, List.count_cons, List.range'_succ]; omega⟩
  | shape ps =>
    obtain ⟨h1, h2, h3, h4, h5, h6, h7, h8, h9, h10⟩ := allocAll_spec ps s
    refine ⟨ps.length, h1, ?_⟩
    simp only [List.perm_iff_count]; intro c
    simp [add, visits, List.count_append, h4, h5, h6, h7, h8, h9, h2]
  | place a => exact absurd h id

theorem build_visits (l : List Add) (s : Sch) (hl : ∀ a ∈ l, Fresh a) (hn : (visits s).Nodup) (hf : ∀ i ∈ visits s, i < s.fresh) :
    (visits (l.foldl add s)).Nodup ∧ ∀ i ∈ visits (l.foldl add s), i < (l.foldl add s).fresh := by
  induction l generalizing s with
  | nil => exact ⟨hn, hf⟩
  | cons a l ih =>
    obtain ⟨n, hfr, hp⟩ := add_visits s a (hl a (by simp))
    apply ih _ (fun b hb => hl b (by simp [hb]))
    · rw [hp.nodup_iff, List.nodup_append]
      refine ⟨hn, List.nodup_range', ?_⟩
      intro i hi j hj e
      subst e
      have := hf i hi
      rw [List.mem_range'_1] at hj; omega
    · intro i hi
      rw [hp.mem_iff, List.mem_append, List.mem_range'_1] at hi
      rw [hfr]
      rcases hi with hi | hi
      · have := hf i hi; omega
      · omega

/-- C59: scaling a schematic that has no IOPIN, and in which no Point object was used twice, moves every component, wire end,
label, directive, line and shape once: to round(x * scale_x + offset_x), round(y * scale_y + offset_y) (in the arithmetic `fl`).
Missing for the full property: schematics with IOPIN, see the next theorem. -/
theorem C59_scale (fl : ℚ → ℚ) (k : Scaling) (l : List Add) (h : ∀ a ∈ l, Fresh a) :
    view (scale fl k (build l)) =
      mapView (fun p => ⟨k.round (fl (fl (p.x * k.sx) + k.ox)), k.round (fl (fl (p.y * k.sy) + k.oy))⟩) (view (build l)) :=
  view_scale fl k _ (build_visits l empty h (by simp [visits, empty]) (by simp [visits, empty])).1

/-- C59: what scaling does to the points of a line and a point on it. -/
def moveSeg (fl : ℚ → ℚ) (k : Scaling) (l : Seg) : Seg := ⟨move fl k l.v1, move fl k l.v2⟩

theorem mono_between {f : ℚ → ℚ} (hf : Monotone f ∨ Antitone f) {a b c : ℚ} (h : min a b ≤ c ∧ c ≤ max a b) :
    min (f a) (f b) ≤ f c ∧ f c ≤ max (f a) (f b) := by
  obtain ⟨h1, h2⟩ := h
  rcases le_total a b with hab | hab
  · rw [min_eq_left hab] at h1; rw [max_eq_right hab] at h2
    rcases hf with m | m
    · exact ⟨(min_le_left _ _).trans (m h1), (m h2).trans (le_max_right _ _)⟩
    · exact ⟨(min_le_right _ _).trans (m h2), (m h1).trans (le_max_left _ _)⟩
  · rw [min_eq_right hab] at h1; rw [max_eq_left hab] at h2
    rcases hf with m | m
    · exact ⟨(min_le_right _ _).trans (m h1), (m h2).trans (le_max_left _ _)⟩
    · exact ⟨(min_le_left _ _).trans (m h2), (m h1).trans (le_max_right _ _)⟩

theorem scaled_mono {fl r : ℚ → ℚ} (hfl : Monotone fl) (hr : Monotone r) (s o : ℚ) :
    Monotone (fun x => r (fl (fl (x * s) + o))) ∨ Antitone (fun x => r (fl (fl (x * s) + o))) := by
  rcases le_total 0 s with h | h
  · left; intro x y hxy
    have h1 : x * s ≤ y * s := mul_le_mul_of_nonneg_right hxy h
    have h2 := hfl h1
    exact hr (hfl (by linarith))
  · right; intro x y hxy
    have h1 : y * s ≤ x * s := mul_le_mul_of_nonpos_right hxy h
    have h2 := hfl h1
    exact hr (hfl (by linarith))

/-- C59: a label, pin or wire end that lies on a horizontal or vertical wire is still on it after all are moved once, for every
scale, every offset and every round function that keeps the order (int, round, floor), in every arithmetic that keeps the order. -/
theorem C59_connections_kept (fl : ℚ → ℚ) (k : Scaling) (l : Seg) (p : Pt) (hfl : Monotone fl) (hr : Monotone k.round) (ha : Axis l)
    (h : On l p) : Axis (moveSeg fl k l) ∧ touches fl (moveSeg fl k l) (move fl k p) = true := by
  rcases ha with hx | hy
  · have hx' : (moveSeg fl k l).v1.x = (moveSeg fl k l).v2.x := by simp only [moveSeg, move]; rw [hx]
    refine ⟨Or.inl hx', ?_⟩
    obtain ⟨t, h0, h1, e1, e2⟩ := h
    unfold touches
    rw [if_pos hx']
    have ep : (moveSeg fl k l).v1.x = (move fl k p).x := by
      simp only [moveSeg, move]; rw [e1, ← hx]; simp
    rw [if_pos ep, decide_eq_true_iff]
    exact mono_between (scaled_mono hfl hr k.sy k.oy) (between_iff.mpr ⟨t, h0, h1, e2⟩)
  · have hy' : (moveSeg fl k l).v1.y = (moveSeg fl k l).v2.y := by simp only [moveSeg, move]; rw [hy]
    refine ⟨Or.inr hy', ?_⟩
    rw [C45_touches_axis fl _ _ (Or.inr hy')]
    obtain ⟨t, h0, h1, e1, e2⟩ := h
    have ey : (move fl k p).y = (moveSeg fl k l).v1.y := by
      simp only [moveSeg, move]; rw [e2, ← hy]; simp
    obtain ⟨u, hu0, hu1, hu⟩ := between_iff.mp (mono_between (scaled_mono hfl hr k.sx k.ox) (between_iff.mpr ⟨t, h0, h1, e1⟩))
    exact ⟨u, hu0, hu1, hu, by rw [ey, ← hy']; ring⟩

/-- C59: int, the default round function, keeps the order. -/
theorem C59_int_keeps_order : Monotone truncate := by
  intro x y h
  unfold truncate
  by_cases hx : 0 ≤ x
  · have hy : 0 ≤ y := hx.trans h
    rw [if_pos hx, if_pos hy]
    exact_mod_cast Rat.floor_monotone h
  · rw [if_neg hx]
    push Not at hx
    have hc : x.ceil ≤ 0 := Rat.ceil_le_iff.mpr (by push_cast; linarith)
    by_cases hy : 0 ≤ y
    · rw [if_pos hy]
      have : 0 ≤ y.floor := Rat.le_floor_iff.mpr (by push_cast; exact hy)
      exact_mod_cast hc.trans this
    · rw [if_neg hy]
      have : x.ceil ≤ y.ceil := Rat.ceil_le_iff.mpr (h.trans (Rat.le_ceil))
      exact_mod_cast this

/-- C59 (finding): the label of an IOPIN is moved twice, so that it leaves the wire it was on. The schematic has a wire from
(0,0) to (16,0) and an input pin at (16,0); all is moved 16 to the right. -/
theorem C59_iopin_witness :
    ∃ (l : List Add) (k : Scaling), k.round = truncate ∧
      (view (build l)).wires = [(⟨0, 0⟩, ⟨16, 0⟩)] ∧ (view (build l)).labels = [⟨16, 0⟩] ∧
      (view (scale id k (build l))).wires = [(⟨16, 0⟩, ⟨32, 0⟩)] ∧ (view (scale id k (build l))).labels = [⟨48, 0⟩] := by
  refine ⟨[.wire ⟨0, 0⟩ ⟨16, 0⟩, .label ⟨16, 0⟩, .iopin], ⟨16, 0, 1, 1, truncate⟩, rfl, ?_, ?_, ?_, ?_⟩ <;> decide +kernel

example : (∀ a ∈ [Add.wire ⟨0, 0⟩ ⟨16, 0⟩, Add.label ⟨16, 0⟩], Fresh a) ∧
    (view (scale id ⟨16, 0, 25/4, -25/4, truncate⟩ (build [.wire ⟨0, 0⟩ ⟨16, 8⟩, .label ⟨16, 8⟩]))).wires = [(⟨16, 0⟩, ⟨116, -50⟩)] := by
  refine ⟨by simp [Fresh], by decide +kernel⟩

end Props.Geom
