import Verif.Lemmas.CompParams

/-! Any number of nodes. -/
namespace Lemmas.CompLine
open Model.Regex Lemmas.Regex Model.CompLine
open Model.PyStr (isSpace)

variable (w : WordClass)

/-- Where the match stands after the nodes. -/
def afterNodes (D N R : Str) : St := ⟨(D ++ N).length, R, [(.nodes, D.length, N), (.designator, 0, D)]⟩

/-- Nodes in any allowed number, as long as nothing can be matched after more of them. -/
theorem exec_range (c : Char) (n m : Nat) (D : Str) (ns : List (Str × Str)) (hn : n ≤ ns.length) (hm : ns.length ≤ m) (hh : HeadOk w c D ns) (Q : Re) (R : Str)
    (hR : ∀ c, R.head? = some c → isSpace c = true)
    (hmore : ∀ (j : Nat) (s y z : St), s.rest = R → Run (.seq (nodeRe w) (upTo (nodeRe w) j)) s y → Run Q (St.close .nodes (afterNodes D [] (nodesText ns ++ R)) y) z → False)
    (x : St) (hx : go Q some (afterNodes D (nodesText ns) R) = some x) : exec (.seq (prefixAndNodes w c n m) Q) (D ++ nodesText ns ++ R) = some x := by
  obtain ⟨a, mark, d, rfl, ha, hmk, hd, hw⟩ := hh.designator
  unfold exec prefixAndNodes
  rw [go_seq, go_seq]
  refine go_designator w c _ _ a mark d (nodesText ns ++ R) (by simp) ha hmk hd hw ?_ x ?_
  · intro y hy
    have := nodes_head w ns hh.nodes _ hR y hy
    by_contra hc
    have e := (w.not y ((Bool.not_eq_false _).mp hc)).1
    rw [e] at this; simp at this
  · rw [go_grp]
    unfold range
    rw [go_seq]
    have hsplit : nodesText ns = nodesText (ns.take n) ++ nodesText (ns.drop n) := by
      unfold nodesText
      rw [← List.flatMap_append, List.take_append_drop]
    have htake : (ns.take n).length = n := by simp [hn]
    have hnk1 : NodesOk w (ns.take n) := fun y hy => hh.nodes y (List.mem_of_mem_take hy)
    have hnk2 : NodesOk w (ns.drop n) := fun y hy => hh.nodes y (List.mem_of_mem_drop hy)
    rw [← htake]
    refine go_times w (ns.take n) hnk1 _ _ (nodesText (ns.drop n) ++ R) ?_ (nodes_head w _ hnk2 _ hR) x ?_
    · simp only [adv]; rw [hsplit]; simp
    · rw [htake]
      refine go_upTo w (ns.drop n) hnk2 (m - n) _ _ R (by simp; omega) rfl hR ?_ x ?_
      · intro j
        apply go_none
        intro y hy
        apply go_none
        intro z hz
        exfalso
        refine hmore j _ y z rfl hy ?_
        simpa [St.close, afterNodes, adv] using hz
      · rw [adv_adv, ← hsplit]
        have e1 : St.close .nodes ⟨0 + (a :: (mark ++ d)).length, nodesText ns ++ R, [(.designator, 0, a :: (mark ++ d))]⟩
            (adv ⟨0 + (a :: (mark ++ d)).length, nodesText ns ++ R, [(.designator, 0, a :: (mark ++ d))]⟩ (nodesText ns) R) = afterNodes (a :: (mark ++ d)) (nodesText ns) R := by
          simp [St.close, adv, afterNodes]; omega
        refine Eq.trans ?_ hx
        exact congrArg _ e1

end Lemmas.CompLine
