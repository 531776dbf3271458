import Verif.Lemmas.CompShort

/-! Rewriting a line, step by step, whatever the component. -/
namespace Lemmas.CompLine
open Model.Regex Lemmas.Regex Model.CompLine
open Model.PyStr (isSpace strip lstrip rstrip upper)
open Model.SpiceParam (insertSection)
open Spec.ParamList (Item Word Blank)

variable (w : WordClass)

/-- A text that begins and ends visibly. -/
def Tight (a : Str) : Prop := a ≠ [] ∧ (∀ c, a.head? = some c → isSpace c = false) ∧ ∀ c, a.getLast? = some c → isSpace c = false

theorem undress_head (letter : Char) (marked : Bool) (name : Str) (hn : name ≠ []) (hw : ∀ c ∈ name, w.word c = true) :
    undress (letter :: ((if marked then ['§'] else []) ++ name)) = if marked then letter :: name else upper (letter :: name) := by
  obtain ⟨y, n, e⟩ := List.exists_cons_of_ne_nil hn
  cases hm : marked with
  | true => simp [undress, e]
  | false =>
    have : y ≠ '§' := by
      have := (w.not y (hw y (by simp [e]))).2
      rintro rfl; exact this (by simp)
    have key : ∀ (a b : Char) (r : Str), b ≠ '§' → undress (a :: b :: r) = upper (a :: b :: r) := by
      intro a b r hb
      unfold undress
      split
      · rename_i heq; simp at heq; exact absurd heq.2.1 hb
      · rfl
    simp only [Bool.false_eq_true, if_false, List.nil_append, e]
    exact key _ _ _ this

theorem designator_tight (letter : Char) (hl : isSpace letter = false) (marked : Bool) (name : Str) (hn : name ≠ []) (hw : ∀ c ∈ name, w.word c = true) :
    Tight (letter :: ((if marked then ['§'] else []) ++ name)) := by
  refine ⟨by simp, ?_, ?_⟩
  · intro c hc; simp at hc; rw [← hc]; exact hl
  · intro c hc
    obtain ⟨z, y, e⟩ := (List.eq_nil_or_concat name).resolve_left hn
    rw [List.concat_eq_append] at e
    have : letter :: ((if marked then ['§'] else []) ++ name) = (letter :: ((if marked then ['§'] else []) ++ z)) ++ [y] := by simp [e]
    rw [this, List.getLast?_concat] at hc
    simp at hc
    rw [← hc]
    exact (w.not y (hw y (by simp [e]))).1

theorem nodes_visible (ns : List (Str × Str)) (h : NodesOk w ns) : ∀ n ∈ ns, n.2 ≠ [] ∧ ∀ c ∈ n.2, isSpace c = false :=
  fun n hn => ⟨(h n hn).2.1, fun c hc => node_not_space w c ((h n hn).2.2 c hc)⟩

theorem tight_last (A : Str) {v : Str} (hv : Tight v) : ∀ c, (A ++ v).getLast? = some c → isSpace c = false := by
  intro c hc
  rw [List.getLast?_append] at hc
  cases hq : v.getLast? with
  | none => simp at hq; exact absurd hq hv.1
  | some q => rw [hq] at hc; simp at hc; exact hv.2.2 c (by rw [hq, hc])

/-- The nodes. -/
theorem step_nodes (D : Str) (ns : List (Str × Str)) (hne : ns ≠ []) (hD : Tight D) (hns : NodesOk w ns) (a : Attrs) (ha : a.ports = ns.map Prod.snd) (m : St)
    (hm : m.get .nodes = some (D.length, nodesText ns)) (gap body T : Str) (hg : gap.head? = some ' ') (hb : Tight body) :
    putNodes a m ⟨D ++ nodesText ns ++ gap ++ body ++ T, 0, false⟩ =
      ⟨D ++ nodesText (single ns) ++ gap ++ body ++ (if nodesText ns = nodesText (single ns) then T else rstrip T), ((nodesText (single ns)).length : Int) - (nodesText ns).length,
        decide (nodesText ns ≠ nodesText (single ns))⟩ := by
  have hj := joinBlank_text ns hne
  change _ = nodesText (single ns) at hj
  unfold putNodes
  rw [hm]
  simp only [ha]
  rw [hj]
  by_cases e : nodesText ns = nodesText (single ns)
  · rw [if_pos e, if_pos e]; simp [e]
  · rw [if_neg e, if_neg e]
    obtain ⟨s1, s2, s3⟩ := join_ends ns hne (nodes_visible w ns hns)
    rw [put_eq _ _ _ _ _ D (nodesText ns ++ gap ++ body ++ T) (by simp) (by simp)]
    rw [← hj]
    rw [insert_gen D _ (joinBlank (ns.map Prod.snd)) _ _ hD.2.1 hD.1 (by
      have := strip_ends ⟨s1, s2, s3⟩
      unfold strip lstrip at this ⊢
      rw [List.dropWhile_cons, if_pos (by decide)]; exact this) (by simp) s1 s3]
    have hlast : D.getLast? ≠ some ' ' := by
      intro g
      have := hD.2.2 _ g
      revert this; decide
    rw [if_neg hlast]
    have hdrop : (nodesText ns ++ gap ++ body ++ T).drop (nodesText ns).length = gap ++ body ++ T := by simp only [List.append_assoc, List.drop_left]
    rw [hdrop]
    have hgap : (gap ++ body ++ T).head? = some ' ' := by
      cases gap with
      | nil => simp at hg
      | cons q g => simpa using hg
    rw [if_neg (by simp only [hgap]; simp)]
    rw [rstrip_last (gap ++ body) (tight_last gap hb) (by simp [hb.1])]
    simp only [Work.mk.injEq]
    refine ⟨by simp, by simp, ?_⟩
    rw [hj]; simp [e]

/-- The value: `old` is the text of the group, `A` what is before it. -/
theorem step_value (A v U v' : Str) (hA : A ≠ []) (hAh : ∀ c, A.head? = some c → isSpace c = false) (hAl : A.getLast? = some ' ') (hv' : Tight v') (a : Attrs) (ha : a.value = some v') (m : St)
    (start : Nat) (off : Int) (z : Str) (hm : m.get .value = some (start, v ++ z)) (hst : (start : Int) + off = A.length) (hU : U.drop z.length = [] ∨ (U.drop z.length).head? = some ' ') (dn : Bool) :
    putValue a m ⟨A ++ v ++ U, off, dn⟩ = if v ++ z = v' then ⟨A ++ v ++ U, off, dn⟩ else
      ⟨A ++ v' ++ rstrip (U.drop z.length), off + (v'.length - (v ++ z).length), true⟩ := by
  unfold putValue
  rw [hm, ha]
  simp only
  by_cases e : v ++ z = v'
  · rw [if_pos e, if_pos e]
  · rw [if_neg e, if_neg e]
    rw [put_eq _ _ _ _ _ A (v ++ U) (by simp) hst]
    rw [insert_gen _ _ v' v' _ hAh hA (strip_ends hv') hv'.1 hv'.1 hv'.2.2]
    rw [hAl, if_pos rfl]
    have hdrop : (v ++ U).drop (v ++ z).length = U.drop z.length := by
      rw [List.length_append, List.drop_append, List.drop_eq_nil_of_le (by omega), List.nil_append]; congr 1; omega
    rw [hdrop]
    have : ¬ (U.drop z.length ≠ [] ∧ (U.drop z.length).head? ≠ some ' ' ∧ 1 < v'.length) := by
      rintro ⟨g1, g2, _⟩
      rcases hU with g | g
      · exact g1 g
      · exact g2 g
    rw [if_neg this]

/-- The designator stays when the reference was not changed. -/
theorem step_ref (a : Attrs) (m : St) (k : Work) (D : Str) (hm : m.get .designator = some (0, D)) (ha : a.ref = undress D) : putRef a m k = k := by
  unfold putRef
  rw [hm]
  simp only
  rw [if_pos ha]

end Lemmas.CompLine
