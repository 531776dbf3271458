import Verif.Model.Sweep
import Verif.Spec.Iter
import Mathlib.Data.Rat.Floor
import Mathlib.Algebra.Order.Archimedean.Basic
import Mathlib.Tactic.Ring
import Mathlib.Tactic.Linarith
import Mathlib.Tactic.FieldSimp
import Mathlib.Tactic.Positivity
/- Helper lemmas for the sweep iterators. -/
namespace Lemmas.Sweep
open Model.Sweep Spec

/-- Generic: an iterator whose i-th value is `f i` while `i < n`. -/
theorem drains_range {σ α : Type} {next : σ → Option α × σ} (st : ℕ → σ) (f : ℕ → α) (n : ℕ) (e : σ)
    (hy : ∀ i, i < n → next (st i) = (some (f i), st (i + 1)))
    (hs : next (st n) = (none, e)) :
    ∀ k i, i + k = n → Drains next (st i) ((List.range' i k).map f) e := by
  intro k
  induction k with
  | zero => intro i hi; have : i = n := by omega
            subst this; exact Drains.stop hs
  | succ k ih =>
    intro i hi
    simp only [List.range'_succ, List.map_cons]
    exact Drains.yield (hy i (by omega)) (ih (i + 1) (by omega))

theorem drains_range0 {σ α : Type} {next : σ → Option α × σ} (st : ℕ → σ) (f : ℕ → α) (n : ℕ) (e : σ)
    (hy : ∀ i, i < n → next (st i) = (some (f i), st (i + 1)))
    (hs : next (st n) = (none, e)) : Drains next (st 0) ((List.range n).map f) e := by
  have := drains_range st f n e hy hs n 0 (by omega)
  rwa [← List.range_eq_range'] at this

theorem lin_drains (s : Lin) (n : ℕ) (h0 : s.niter = 0)
    (hin : ∀ i : ℕ, i < n →
      (s.step > 0 ∧ s.start + (i : ℚ) * s.step ≤ s.stop) ∨ (s.step < 0 ∧ s.start + (i : ℚ) * s.step ≥ s.stop))
    (hout : ¬ ((s.step > 0 ∧ s.start + (n : ℚ) * s.step ≤ s.stop) ∨
      (s.step < 0 ∧ s.start + (n : ℚ) * s.step ≥ s.stop))) :
    ∃ e, Drains Lin.next s ((List.range n).map fun k : ℕ => s.start + (k : ℚ) * s.step) e := by
  refine ⟨{ s with niter := n + 1, finished := true }, ?_⟩
  have hs : ({ s with niter := 0 } : Lin) = s := by
    cases s; simp at h0; subst h0; rfl
  have := drains_range0 (next := Lin.next) (fun i : ℕ => ({ s with niter := i } : Lin))
    (fun k : ℕ => s.start + (k : ℚ) * s.step) n { s with niter := n + 1, finished := true }
    (by intro i hi
        have := hin i hi
        simp only [Lin.next]
        rw [if_pos this])
    (by simp only [Lin.next]; rw [if_neg hout])
  simp only [hs] at this
  exact this

/-- The points `first + k*delta`, `k = 0..⌊|last-first|/|delta|⌋`, are exactly those inside. -/
theorem floor_in (a b d : ℚ) (hd : 0 < d) (_hab : a ≤ b) (i : ℕ) :
    i < ⌊(b - a) / d⌋₊ + 1 ↔ a + (i : ℚ) * d ≤ b := by
  rw [Nat.lt_add_one_iff, Nat.le_floor_iff (by apply div_nonneg <;> linarith), le_div_iff₀ hd]
  constructor <;> intro h <;> linarith

theorem log_drains (s : Log) (n : ℕ) (h0 : s.val = s.start)
    (hin : ∀ i : ℕ, i < n →
      (s.start < s.stop ∧ s.start * s.step ^ i ≤ s.stop) ∨ (s.start > s.stop ∧ s.start * s.step ^ i ≥ s.stop))
    (hout : ¬ ((s.start < s.stop ∧ s.start * s.step ^ n ≤ s.stop) ∨
      (s.start > s.stop ∧ s.start * s.step ^ n ≥ s.stop))) :
    ∃ e, Drains Log.next s ((List.range n).map fun k : ℕ => s.start * s.step ^ k) e := by
  refine ⟨{ s with val := s.start * s.step ^ (n+1), finished := true }, ?_⟩
  have hs : ({ s with val := s.start * s.step ^ 0 } : Log) = s := by
    cases s; simp at h0; subst h0; simp
  have := drains_range0 (next := Log.next) (fun i : ℕ => ({ s with val := s.start * s.step ^ i } : Log))
    (fun k : ℕ => s.start * s.step ^ k) n { s with val := s.start * s.step ^ (n+1), finished := true }
    (by intro i hi
        have := hin i hi
        simp only [Log.next]
        rw [if_pos this, pow_succ, mul_assoc])
    (by simp only [Log.next]; rw [if_neg hout, pow_succ, mul_assoc])
  simp only [hs] at this
  exact this

theorem logN_drains (s : LogN) (h0 : s.niter = 0) :
    ∃ e, Drains LogN.next s ((List.range s.stop.toNat).map fun k : ℕ => s.start * s.step ^ k) e := by
  refine ⟨{ s with niter := s.stop.toNat, finished := true }, ?_⟩
  have hs : ({ s with niter := 0 } : LogN) = s := by
    cases s; simp at h0; subst h0; rfl
  have := drains_range0 (next := LogN.next) (fun i : ℕ => ({ s with niter := i } : LogN))
    (fun k : ℕ => s.start * s.step ^ k) s.stop.toNat { s with niter := s.stop.toNat, finished := true }
    (by intro i hi
        simp only [LogN.next]
        rw [if_pos (by omega)])
    (by simp only [LogN.next]; rw [if_neg (by omega)])
  simp only [hs] at this
  exact this

/-- If every state reachable by `next` yields, the iterator diverges. -/
theorem diverges_of_inv {σ α : Type} {next : σ → Option α × σ} (I : σ → Prop)
    (h : ∀ s, I s → ∃ x s1, next s = (some x, s1) ∧ I s1) {s : σ} (hs : I s) : Diverges next s := by
  rintro ⟨xs, s', hd⟩
  induction hd with
  | stop h' => obtain ⟨x, s1, e, _⟩ := h _ hs; rw [e] at h'; cases h'
  | yield h' _ ih => obtain ⟨x, s1, e, hi⟩ := h _ hs; rw [e] at h'; cases h'; exact ih hi

end Lemmas.Sweep
