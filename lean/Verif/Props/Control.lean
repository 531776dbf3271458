import Verif.Model.Control
import Verif.Spec.Control
import Verif.Props.NetTree
import Verif.Props.Netlist
/-
C87: the control sections of a netlist.
-/
namespace Props.Control
open Model.Control Model.PyStr Spec.NetBlocks Spec.Control
open Model.Netlist
open Props.NetTree (itemsOf item comments)

/-! Finding -/

theorem controls_append (a b : List Elem) : getControls (a ++ b) = getControls a ++ getControls b := by
  induction a with
  | nil => rfl
  | cons e a ih => cases e <;> simp [getControls, ih]

theorem findControl_spec : ∀ (es : List Elem) (k : Nat), (getControls es).length ≤ k ∧ findControl k es = none ∨
    ∃ (a : List Elem) (o : Option Str) (b : List Elem), es = a ++ Elem.ctrl o :: b ∧ (getControls a).length = k ∧
      findControl k es = some (a.length, o) := by
  intro es
  induction es with
  | nil => intro k; left; simp [getControls, findControl]
  | cons e es ih =>
    intro k
    have other : ∀ (k' : Nat), k' ≤ k → k ≤ k' + (getControls [e]).length → (k' = k ∨ ∃ o, e = .ctrl o) →
        findControl k (e :: es) = (findControl k' es).map (fun r => (r.1 + 1, r.2)) → (getControls [e]).length + k' = k →
        ((getControls (e :: es)).length ≤ k ∧ findControl k (e :: es) = none ∨
          ∃ (a : List Elem) (o : Option Str) (b : List Elem), e :: es = a ++ Elem.ctrl o :: b ∧ (getControls a).length = k ∧
            findControl k (e :: es) = some (a.length, o)) := by
      intro k' _ _ _ hf hk
      rcases ih k' with ⟨h1, h2⟩ | ⟨a, o, b, h1, h2, h3⟩
      · left
        refine ⟨?_, by rw [hf, h2]; rfl⟩
        rw [show e :: es = [e] ++ es from rfl, controls_append, List.length_append]
        omega
      · right
        refine ⟨e :: a, o, b, by rw [h1]; rfl, ?_, by rw [hf, h3]; rfl⟩
        rw [show e :: a = [e] ++ a from rfl, controls_append, List.length_append]
        omega
    cases e with
    | ctrl o =>
      cases k with
      | zero => right; exact ⟨[], o, es, rfl, rfl, rfl⟩
      | succ k => exact other k (by omega) (by simp [getControls]) (Or.inr ⟨o, rfl⟩) rfl (by simp [getControls]; omega)
    | text s => exact other k (by omega) (by omega) (Or.inl rfl) (by cases k <;> rfl) (by simp [getControls])
    | prim s => exact other k (by omega) (by omega) (Or.inl rfl) (by cases k <;> rfl) (by simp [getControls])
    | comp s => exact other k (by omega) (by omega) (Or.inl rfl) (by cases k <;> rfl) (by simp [getControls])
    | incl s => exact other k (by omega) (by omega) (Or.inl rfl) (by cases k <;> rfl) (by simp [getControls])
    | sub s => exact other k (by omega) (by omega) (Or.inl rfl) (by cases k <;> rfl) (by simp [getControls])

/-! C87 -/

/-- C87: the control sections of a loaded file are exactly those at its top level, in the order of the file, each with all its lines from `.CONTROL` to
`.ENDC`. -/
theorem C87_loaded (bs : List Block) (h : allOk bs) (e : Str) (he : kindOf e = some .closing) (rest : List Str)
    (hr : ∀ l ∈ rest, ∃ k, kindOf l = some k) (inc : Bool) :
    ∃ items : List Model.NetTree.Item, Model.NetTree.load inc (linesOf bs ++ e :: rest) = .ok items ∧
      getControls (items.map ofItem) = (sections bs).map some := by
  refine ⟨_, Props.NetTree.C32_load bs h e he rest hr inc, ?_⟩
  rw [List.map_append, List.map_append, controls_append, controls_append]
  have h1 : ∀ bs : List Block, getControls ((itemsOf bs).map ofItem) = (sections bs).map some := by
    intro bs
    induction bs with
    | nil => rfl
    | cons b bs ih =>
      cases b with
      | line s =>
        simp only [itemsOf, List.map_cons, item, sections]
        rw [← ih]
        split <;> rfl
      | subckt hd b t => simp only [itemsOf, List.map_cons, item, sections]; rw [← ih]; rfl
      | control hd b t =>
        simp only [itemsOf, List.map_cons, item, sections, ofItem, getControls, ih, sectionText, List.flatMap_def]
  have h2 : getControls ((comments rest).map ofItem) = [] := by
    unfold comments
    generalize (rest.filter _) = l
    induction l with
    | nil => rfl
    | cons x l ih => exact ih
  rw [h1, h2]
  simp [ofItem, getControls]

/-- C87: removing section number `k` of a netlist whose sections all have their text removes that section and nothing else, leaves the other elements in
their order, returns True and is recorded once in the journal of an editor that keeps one. -/
theorem C87_remove (ed : Ed) (k : Nat) (hp : ed.perm ≠ .deny) (hk : k < (getControls ed.netlist).length)
    (ht : ∀ o ∈ getControls ed.netlist, o ≠ none) :
    ∃ (a : List Elem) (s : Str) (b : List Elem), ed.netlist = a ++ .ctrl (some s) :: b ∧ (getControls ed.netlist)[k]? = some (some s) ∧
      (removeControl ed k).1 = .ok true ∧
      (removeControl ed k).2.netlist = a ++ b ∧
      getControls (removeControl ed k).2.netlist = (getControls ed.netlist).eraseIdx k ∧
      (removeControl ed k).2.perm = ed.perm ∧
      (ed.perm = .inform → ∃ t : Str, (removeControl ed k).2.calls = ed.calls ++ [("INSTRUCTION".toList, t, .deleteInstruction)] ∧ '\n' ∉ t) ∧
      (ed.perm = .initializing → (removeControl ed k).2.calls = ed.calls) := by
  rcases findControl_spec ed.netlist k with ⟨h1, _⟩ | ⟨a, o, b, h1, h2, h3⟩
  · omega
  · have hg : getControls ed.netlist = getControls a ++ o :: getControls b := by rw [h1, controls_append]; rfl
    cases o with
    | none => exact absurd rfl (ht none (by rw [hg]; simp))
    | some s =>
      have hr : removeControl ed k = (.ok true, { ed with netlist := ed.netlist.eraseIdx a.length }.journal (escaped s) .deleteInstruction) := by
        unfold removeControl
        rw [if_neg hp, if_neg (by omega), Int.toNat_natCast, h3]
      have hn : ed.netlist.eraseIdx a.length = a ++ b := by
        rw [h1, List.eraseIdx_append_of_length_le (by omega), Nat.sub_self]; rfl
      have hj : ∀ (e : Ed) (t : Str) (u : Model.Updates.UpdateType), (e.journal t u).netlist = e.netlist ∧ (e.journal t u).perm = e.perm := by
        intro e t u
        unfold Ed.journal
        split_ifs <;> simp
      refine ⟨a, s, b, h1, ?_, by rw [hr], ?_, ?_, ?_, ?_, ?_⟩
      · rw [hg, ← h2, List.getElem?_append_right (by omega), Nat.sub_self]; rfl
      · rw [hr]; show (Ed.journal _ _ _).netlist = _; rw [(hj _ _ _).1]; exact hn
      · rw [hr]
        show getControls (Ed.journal _ _ _).netlist = _
        rw [(hj _ _ _).1]
        show getControls (ed.netlist.eraseIdx a.length) = _
        rw [hn, controls_append, hg, ← h2, List.eraseIdx_append_of_length_le (by omega), Nat.sub_self]
        rfl
      · rw [hr]; exact (hj _ _ _).2
      · intro hi
        refine ⟨escaped s, ?_, ?_⟩
        · rw [hr]
          show (Ed.journal _ _ _).calls = _
          unfold Ed.journal
          rw [if_pos hi]
        · unfold escaped
          simp only [List.mem_flatMap, not_exists, not_and]
          intro c _ hc
          split_ifs at hc with h1 h2 <;> simp at hc
          exact h2 hc.symm
      · intro hi
        rw [hr]
        show (Ed.journal _ _ _).calls = _
        unfold Ed.journal
        rw [if_neg (by show ed.perm ≠ _; rw [hi]; simp)]

/-- C87: a number that is not that of a section removes nothing: False if it is too large, IndexError if it is negative; an editor that may not be changed
raises PermissionError. -/
theorem C87_remove_nothing (ed : Ed) (i : Int)
    (h : ed.perm = .deny ∨ i < 0 ∨ ((getControls ed.netlist).length : Int) ≤ i) :
    (removeControl ed i).2 = ed ∧
    (ed.perm = .deny → (removeControl ed i).1 = .error .permission) ∧
    (ed.perm ≠ .deny → i < 0 → (removeControl ed i).1 = .error .index) ∧
    (ed.perm ≠ .deny → 0 ≤ i → (removeControl ed i).1 = .ok false) := by
  by_cases hp : ed.perm = .deny
  · have : removeControl ed i = (.error .permission, ed) := by unfold removeControl; rw [if_pos hp]
    rw [this]
    exact ⟨rfl, fun _ => rfl, fun h => absurd hp h, fun h => absurd hp h⟩
  · by_cases hi : i < 0
    · have : removeControl ed i = (.error .index, ed) := by unfold removeControl; rw [if_neg hp, if_pos hi]
      rw [this]
      exact ⟨rfl, fun h => absurd h hp, fun _ _ => rfl, fun _ h => by omega⟩
    · have hl : (getControls ed.netlist).length ≤ i.toNat := by
        rcases h with h | h | h
        · exact absurd h hp
        · exact absurd h hi
        · omega
      have : removeControl ed i = (.ok false, ed) := by
        unfold removeControl
        rw [if_neg hp, if_neg hi]
        rcases findControl_spec ed.netlist i.toNat with ⟨_, h2⟩ | ⟨a, o, b, h1, h2, _⟩
        · rw [h2]
        · exfalso
          rw [h1, controls_append, List.length_append] at hl
          simp only [getControls, List.length_cons] at hl
          omega
      rw [this]
      exact ⟨rfl, fun h => absurd h hp, fun _ h => absurd h hi, fun _ _ => rfl⟩

/-- C87: text that does not go from `.CONTROL` to `.ENDC` (in any letter case, between blanks) is refused and changes nothing. -/
theorem C87_add_rejects (ed : Ed) (t : Str) :
    (¬ ".CONTROL".toList <+: upper (strip t) ∨ ¬ ".ENDC".toList <:+ upper (strip t) → addControl ed t = .error .value) ∧
    (".CONTROL".toList <+: upper (strip t) → ".ENDC".toList <:+ upper (strip t) → addControl ed t = addInstruction ed (strip t)) := by
  have h1 : ∀ s : Str, (".CONTROL".toList.isPrefixOf s = true ↔ ".CONTROL".toList <+: s) := fun s => List.isPrefixOf_iff_prefix
  have h2 : ∀ s : Str, (endsWith ".ENDC".toList s = true ↔ ".ENDC".toList <:+ s) := by
    intro s; unfold endsWith; rw [List.isPrefixOf_iff_prefix, List.reverse_prefix]
  constructor
  · intro h
    unfold addControl
    apply if_pos
    rcases h with h | h
    · rw [← h1] at h; simp only [Bool.not_eq_true] at h; rw [h]; rfl
    · rw [← h2] at h; simp only [Bool.not_eq_true] at h; rw [h]; simp
  · intro ha hb
    unfold addControl
    rw [if_neg]
    rw [(h1 _).mpr ha, (h2 _).mpr hb]
    decide

/-- C87, what is not so: the text of an added section is lost, so the netlist can no longer be written; removing that section deletes it, but raises
AttributeError without a journal entry. -/
theorem C87_limits :
    ((addControl Props.Netlist.demo ".control\nrun\n.endc".toList).toOption.map (fun ed => (getControls ed.netlist, writeLines ed.netlist)) =
      some ([none], none)) ∧
    ((addControl Props.Netlist.demo ".control\nrun\n.endc".toList).toOption.map (fun ed =>
        ((removeControl ed 0).1.toOption, (removeControl ed 0).2.netlist, (removeControl ed 0).2.calls.length - ed.calls.length)) =
      some (none, Props.Netlist.demo.netlist, 0)) := by
  refine ⟨?_, ?_⟩ <;> decide +kernel

/-- C87 is not vacuous: the second of two sections of an editor. -/
theorem C87_sample :
    let ed : Ed := ⟨.inform, [.text "* t\n".toList, .ctrl (some ".control\nrun\n.endc\n".toList), .comp (some "R1 a b 1\n".toList),
      .ctrl (some ".control\nquit\n.endc\n".toList), .prim ".end\n".toList], []⟩
    (removeControl ed 1).1.toOption = some true ∧
    (removeControl ed 1).2 = ⟨.inform, [.text "* t\n".toList, .ctrl (some ".control\nrun\n.endc\n".toList), .comp (some "R1 a b 1\n".toList),
      .prim ".end\n".toList], [("INSTRUCTION".toList, ".control\\nquit\\n.endc\\n".toList, .deleteInstruction)]⟩ := by
  refine ⟨?_, ?_⟩ <;> decide +kernel

example : ∃ items : List Model.NetTree.Item,
    Model.NetTree.load false ([".control\n".toList, "run \n".toList, ".endc\n".toList, "R1 a b 1\n".toList] ++ ".end\n".toList :: []) = .ok items ∧
      getControls (items.map ofItem) = [some ".control\nrun\n.endc\n".toList] :=
  C87_loaded [.control ".control\n".toList ["run \n".toList] ".endc\n".toList, .line "R1 a b 1\n".toList]
    ⟨⟨by decide +kernel, by decide +kernel, by decide +kernel⟩, ⟨Or.inr (Or.inl (by decide +kernel)), trivial⟩⟩ ".end\n".toList (by decide +kernel) []
    (by simp) false

end Props.Control
