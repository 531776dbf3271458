/-
Specification vocabulary for Python iterators (independent of any spicelib model).

`Drains next s xs s'` says: calling `__next__` repeatedly from state `s` returns the values
`xs` in order and then raises `StopIteration`, leaving the iterator in state `s'`.
This is what `list(it)` or a `for` loop observes.
-/
namespace Spec

inductive Drains {σ α : Type} (next : σ → Option α × σ) : σ → List α → σ → Prop
  | stop {s s' : σ} : next s = (none, s') → Drains next s [] s'
  | yield {s s1 s' : σ} {x : α} {xs : List α} :
      next s = (some x, s1) → Drains next s1 xs s' → Drains next s (x :: xs) s'

/-- The iterator never raises `StopIteration`: it can be asked for more values forever. -/
def Diverges {σ α : Type} (next : σ → Option α × σ) (s : σ) : Prop :=
  ¬ ∃ xs s', Drains next s xs s'

theorem Drains.deterministic {σ α : Type} {next : σ → Option α × σ} {s : σ} {xs ys : List α}
    {s1 s2 : σ} (h1 : Drains next s xs s1) (h2 : Drains next s ys s2) : xs = ys ∧ s1 = s2 := by
  induction h1 generalizing ys with
  | stop h =>
    cases h2 with
    | stop h' => rw [h] at h'; exact ⟨rfl, by injection h'⟩
    | yield h' _ => rw [h] at h'; cases h'
  | yield h _ ih =>
    cases h2 with
    | stop h' => rw [h] at h'; cases h'
    | yield h' h2' =>
      rw [h] at h'; cases h'
      obtain ⟨a, b⟩ := ih h2'
      exact ⟨by rw [a], b⟩

end Spec
