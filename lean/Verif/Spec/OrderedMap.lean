/-
Specification vocabulary for journals: keys in order of first occurrence, last value of a key.
-/
namespace Spec

variable {α β : Type} [DecidableEq α]

/-- The distinct elements of a list, in the order of their first occurrence. -/
def firstOccurrences : List α → List α
  | [] => []
  | a :: l => a :: (firstOccurrences l).filter (· ≠ a)

/-- The value of the last entry with key `k`. -/
def lastValue (k : α) (l : List (α × β)) : Option β :=
  (l.reverse.find? (fun p => decide (p.1 = k))).map (·.2)

theorem mem_firstOccurrences (a : α) (l : List α) : a ∈ firstOccurrences l ↔ a ∈ l := by
  induction l with
  | nil => simp [firstOccurrences]
  | cons b l ih =>
    by_cases h : a = b
    · simp [firstOccurrences, h]
    · simp [firstOccurrences, ih, h]

theorem nodup_firstOccurrences (l : List α) : (firstOccurrences l).Nodup := by
  induction l with
  | nil => simp [firstOccurrences]
  | cons b l ih =>
    simp only [firstOccurrences, List.nodup_cons]
    exact ⟨by simp, List.Nodup.sublist List.filter_sublist ih⟩

theorem firstOccurrences_append_singleton (l : List α) (a : α) :
    firstOccurrences (l ++ [a]) = if a ∈ l then firstOccurrences l else firstOccurrences l ++ [a] := by
  induction l with
  | nil => simp [firstOccurrences]
  | cons b l ih =>
    simp only [List.cons_append, firstOccurrences, ih]
    by_cases hab : a = b
    · subst hab
      simp only [List.mem_cons, true_or, if_true]
      split <;> simp
    · have hba : ¬ b = a := fun h => hab h.symm
      simp only [List.mem_cons, hab, false_or]
      split
      · rfl
      · simp [hab]

theorem lastValue_append_singleton (k : α) (l : List (α × β)) (p : α × β) :
    lastValue k (l ++ [p]) = if p.1 = k then some p.2 else lastValue k l := by
  unfold lastValue
  simp only [List.reverse_append, List.reverse_singleton, List.singleton_append, List.find?_cons]
  by_cases h : p.1 = k
  · simp [h]
  · simp [h]

end Spec
