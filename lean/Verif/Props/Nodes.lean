import Verif.Model.Nodes
import Verif.Model.Netlist
import Verif.Props.CompShort
/-
C95: the nodes of a circuit.
-/
namespace Props.Nodes
open Model.Nodes
open Model.CompLine (WordClass regexFor words)
open Model.Regex (exec)
open Spec.CompLine (Line Shape Short ShortKind)
open Lemmas.CompLine (words_nodes nodesText)
abbrev Str := List Char

/-- Specification: every member once, in the order of the first occurrences. -/
def firsts : List Str → List Str
  | [] => []
  | x :: xs => x :: (firsts xs).filter (fun y => decide (y ≠ x))

theorem mem_firsts (l : List Str) (x : Str) : x ∈ firsts l ↔ x ∈ l := by
  induction l with
  | nil => simp [firsts]
  | cons y l ih =>
    unfold firsts
    rw [List.mem_cons, List.mem_filter, List.mem_cons, ih]
    by_cases h : x = y <;> simp [h]

theorem nodup_firsts (l : List Str) : (firsts l).Nodup := by
  induction l with
  | nil => exact List.nodup_nil
  | cons y l ih =>
    unfold firsts
    refine List.nodup_cons.mpr ⟨?_, ih.filter _⟩
    simp

theorem firsts_cons (x : Str) (xs : List Str) : firsts (x :: xs) = x :: (firsts xs).filter (fun y => decide (y ≠ x)) := rfl

theorem fold_nodes (l : List Str) : ∀ acc : List Str, l.foldl addNode acc = acc ++ (firsts l).filter (fun y => !acc.contains y) := by
  induction l with
  | nil => intro acc; simp [firsts]
  | cons x l ih =>
    intro acc
    rw [List.foldl_cons, ih, firsts_cons]
    unfold addNode
    by_cases h : acc.contains x
    · rw [if_pos h, List.filter_cons_of_neg (by rw [h]; decide), List.filter_filter]
      congr 1
      apply List.filter_congr
      intro y _
      by_cases hy : y = x
      · subst hy; rw [h]; simp
      · simp [hy]
    · rw [if_neg h, List.filter_cons_of_pos (by rw [Bool.not_eq_true] at h; rw [h]; rfl), List.filter_filter, List.append_assoc, List.singleton_append]
      congr 2
      apply List.filter_congr
      intro y _
      by_cases hy : y = x
      · subst hy; simp
      · have : (acc ++ [x]).contains y = acc.contains y := by
          simp [hy]
        rw [this]; simp [hy]

theorem firsts_append (a b : List Str) : firsts (a ++ b) = firsts a ++ (firsts b).filter (fun y => !(firsts a).contains y) := by
  have h1 := fold_nodes (a ++ b) []
  rw [List.foldl_append, fold_nodes a, fold_nodes b] at h1
  simp only [List.contains_nil, Bool.not_false, List.filter_true, List.nil_append] at h1
  exact h1.symm

/-- An element of the netlist and the nodes it names: a line of a component as C63 describes it, or something else than a component. -/
inductive Written (w : WordClass) : Elem → List Str → Prop
  | line (l : Line) (sh : Shape) : l.Ok w.word sh → Written w (.comp (some (l.text ++ ['\n']))) (l.nodes.map Prod.snd)
  | short (l : Short) (k : ShortKind) : l.Ok w.word k → Written w (.comp (some (l.text ++ ['\n']))) (l.nodes.map Prod.snd)
  | passed (e : Elem) : (∀ obj, e ≠ .comp obj) → Written w e []

theorem collect_other (w : WordClass) (e : Elem) (es : List Elem) (acc : List Str) (h : ∀ obj, e ≠ .comp obj) : collect w (e :: es) acc = collect w es acc := by
  cases e with
  | comp obj => exact absurd rfl (h obj)
  | text s => rfl
  | prim s => rfl
  | circuit b => rfl
  | control => rfl
  | included b => rfl

theorem collect_comp (w : WordClass) (s : Str) (hs : s ≠ []) (es : List Elem) (acc : List Str) :
    collect w (.comp (some s) :: es) acc = collect w es ((lineNodes w s).foldl addNode acc) := by
  cases s with
  | nil => exact absurd rfl hs
  | cons c t => rfl

theorem nodes_line (w : WordClass) (l : Line) (sh : Shape) (h : l.Ok w.word sh) : lineNodes w (l.text ++ ['\n']) = l.nodes.map Prod.snd := by
  obtain ⟨r, x, b, rest, h1, _, h2, hf, _⟩ := Lemmas.CompLine.exec_line w l sh h ['\n'] (by decide)
  have e1 : l.text ++ ['\n'] = l.letter :: ((if l.marked then ['§'] else []) ++ l.name ++ l.nodesText ++ l.gap ++ l.pre ++ l.value ++ l.itemsText ++ l.blanks ++ l.comment ++ ['\n']) := by
    simp [Line.text, Line.designator]
  unfold lineNodes
  split
  · rename_i heq; rw [e1] at heq; cases heq
  · rename_i c t heq
    have hc : c = l.letter := by rw [e1] at heq; injection heq with heq; exact heq.symm
    rw [hc, h1]
    simp only
    rw [h2]
    simp only [hf.nodes, Option.map_some, Option.getD_some]
    exact words_nodes w l.nodes (Props.CompLine.nodes_ok w h)

theorem nodes_short (w : WordClass) (l : Short) (k : ShortKind) (h : l.Ok w.word k) : lineNodes w (l.text ++ ['\n']) = l.nodes.map Prod.snd := by
  obtain ⟨r, h1, _, ⟨x, h2, hf⟩, _⟩ := Props.CompShort.exec_short w l k h
  have e1 : l.text ++ ['\n'] = l.letter :: ((if l.marked then ['§'] else []) ++ l.name ++ l.nodesText ++ l.gap ++ l.value ++ l.tail ++ ['\n']) := by
    simp [Short.text, Short.designator]
  unfold lineNodes
  split
  · rename_i heq; rw [e1] at heq; cases heq
  · rename_i c t heq
    have hc : c = l.letter := by rw [e1] at heq; injection heq with heq; exact heq.symm
    rw [hc, h1]
    simp only
    rw [h2]
    simp only [hf.nodes, Option.map_some, Option.getD_some]
    exact words_nodes w l.nodes (Props.CompShort.nodes_ok w h)

theorem collect_written (w : WordClass) {es : List Elem} {nodes : List (List Str)} (h : List.Forall₂ (Written w) es nodes) :
    ∀ acc, collect w es acc = .ok (acc ++ (firsts nodes.flatten).filter (fun y => !acc.contains y)) := by
  induction h with
  | nil => intro acc; simp [collect, firsts]
  | @cons e ns es nodes h1 _ ih =>
    intro acc
    have step : collect w (e :: es) acc = collect w es (ns.foldl addNode acc) := by
      cases h1 with
      | line l sh hl => rw [collect_comp w _ (by simp), nodes_line w l sh hl]
      | short l k hl => rw [collect_comp w _ (by simp), nodes_short w l k hl]
      | passed _ hp => rw [collect_other w e es acc hp]; rfl
    rw [step, ih, fold_nodes, List.flatten_cons, firsts_append, List.filter_append, List.append_assoc]
    congr 3
    rw [List.filter_filter]
    apply List.filter_congr
    intro y _
    have h3 : (acc ++ (firsts ns).filter (fun y => !acc.contains y)).contains y = (acc.contains y || (firsts ns).contains y) := by
      rw [Bool.eq_iff_iff]
      simp only [List.contains_iff_mem, Bool.or_eq_true, List.mem_append, List.mem_filter, Bool.not_eq_true', ← Bool.not_eq_true]
      tauto
    rw [h3]; cases acc.contains y <;> simp

/-- C95: the nodes named by the component lines of the circuit, every one once, in the order in which they occur first. -/
theorem C95_nodes (w : WordClass) (netlist : List Elem) (nodes : List (List Str)) (h : List.Forall₂ (Written w) netlist nodes) :
    allNodes w netlist = .ok (firsts nodes.flatten) := by
  unfold allNodes
  rw [collect_written w h]
  simp

/-- C95: whatever the lines are, no node is given twice. -/
theorem C95_distinct (w : WordClass) (netlist : List Elem) (r : List Str) (h : allNodes w netlist = .ok r) : r.Nodup := by
  have main : ∀ (es : List Elem) (acc : List Str), acc.Nodup → collect w es acc = .ok r → r.Nodup := by
    intro es
    induction es with
    | nil => intro acc ha h; injection h with h; rw [← h]; exact ha
    | cons e es ih =>
      intro acc ha h
      have keep : ∀ ns : List Str, (ns.foldl addNode acc).Nodup := by
        intro ns
        rw [fold_nodes, List.nodup_append]
        refine ⟨ha, (nodup_firsts ns).filter _, ?_⟩
        intro a h1 b h2 hab
        subst hab
        have := (List.mem_filter.mp h2).2
        simp [h1] at this
      by_cases hc : ∃ obj, e = .comp obj
      · obtain ⟨obj, rfl⟩ := hc
        cases obj with
        | none => cases h
        | some s =>
          cases s with
          | nil => cases h
          | cons c t => exact ih _ (keep _) h
      · rw [collect_other w e es acc (fun obj ho => hc ⟨obj, ho⟩)] at h
        exact ih acc ha h
  exact main netlist [] List.nodup_nil h

/-- C95: a component that was created without a text makes the call fail. -/
theorem C95_without_text (w : WordClass) (netlist : List Elem) (h : Elem.comp none ∈ netlist ∨ Elem.comp (some []) ∈ netlist) :
    ∃ e, allNodes w netlist = .error e := by
  have main : ∀ (es : List Elem) (acc : List Str), Elem.comp none ∈ es ∨ Elem.comp (some []) ∈ es → ∃ e, collect w es acc = .error e := by
    intro es
    induction es with
    | nil => intro acc h; simp at h
    | cons e es ih =>
      intro acc h
      by_cases hc : ∃ obj, e = .comp obj
      · obtain ⟨obj, rfl⟩ := hc
        cases obj with
        | none => exact ⟨_, rfl⟩
        | some s =>
          cases s with
          | nil => exact ⟨_, rfl⟩
          | cons c t =>
            refine ih _ ?_
            simpa using h
      · rw [collect_other w e es acc (fun obj ho => hc ⟨obj, ho⟩)]
        refine ih acc ?_
        rcases h with h | h
        · rcases List.mem_cons.mp h with h | h
          · exact absurd ⟨_, h.symm⟩ hc
          · exact .inl h
        · rcases List.mem_cons.mp h with h | h
          · exact absurd ⟨_, h.symm⟩ hc
          · exact .inr h
  exact main netlist [] h

mutual
/-- Specification: the number of component lines of a circuit, those of its sub-circuits and included files as well. A line or a component counts when
its command (the first letter, for a component) is the letter of a component. -/
def count (command : Str → Option Str) (prefixes : List Str) : List Elem → Nat
  | [] => 0
  | e :: es => countOne command prefixes e + count command prefixes es
def countOne (command : Str → Option Str) (prefixes : List Str) : Elem → Nat
  | .text s => if ∃ c ∈ prefixes, command s = some c then 1 else 0
  | .prim s => if ∃ c ∈ prefixes, command s = some c then 1 else 0
  | .comp obj => if ∃ c ∈ prefixes, obj.map (List.take 1) = some c then 1 else 0
  | .circuit body => count command prefixes body
  | .included (some body) => count command prefixes body
  | _ => 0
end

mutual
/-- The lines a netlist is read into: every line has a command, every component has a text. -/
def Plain (command : Str → Option Str) : List Elem → Prop
  | [] => True
  | e :: es => PlainOne command e ∧ Plain command es
def PlainOne (command : Str → Option Str) : Elem → Prop
  | .text s => command s ≠ none
  | .prim s => command s ≠ none
  | .comp obj => ∃ c t, obj = some (c :: t)
  | .circuit body => Plain command body
  | .control => True
  | .included none => True
  | .included (some body) => Plain command body
end

theorem line_count (command : Str → Option Str) (prefixes : List Str) (s : Str) (h : command s ≠ none) :
    ofLine command prefixes s = .ok (List.replicate (if ∃ c ∈ prefixes, command s = some c then 1 else 0) ⟨none, none, [], none⟩) := by
  cases hc : command s with
  | none => exact absurd hc h
  | some c =>
    simp only [ofLine, hc, List.contains_iff_mem, Option.some.injEq, exists_eq_right']
    by_cases hm : c ∈ prefixes <;> simp [hm, fresh]

mutual
/-- C95: iterating over a circuit gives one object per component line, sub-circuits and included files included. Limit: the objects are
empty, they have neither reference nor value nor netlist. -/
theorem C95_iteration (command : Str → Option Str) (prefixes : List Str) : ∀ (es : List Elem), Plain command es →
    iter command prefixes es = .ok (List.replicate (count command prefixes es) ⟨none, none, [], none⟩)
  | [], _ => by simp [iter, count]
  | e :: es, h => by
    unfold Plain at h
    rw [iter, iteration_one command prefixes e h.1]
    dsimp only
    rw [C95_iteration command prefixes es h.2]
    simp only [count, List.replicate_append_replicate]
theorem iteration_one (command : Str → Option Str) (prefixes : List Str) : ∀ (e : Elem), PlainOne command e →
    iterOne command prefixes e = .ok (List.replicate (countOne command prefixes e) ⟨none, none, [], none⟩)
  | .text s, h => by
    rw [iterOne, countOne]
    exact line_count command prefixes s h
  | .prim s, h => by
    rw [iterOne, countOne]
    exact line_count command prefixes s h
  | .comp obj, h => by
    obtain ⟨c, t, h1⟩ := h
    subst h1
    by_cases hm : [c] ∈ prefixes <;> simp [iterOne, ofComp, hm, countOne, fresh]
  | .circuit body, h => by
    unfold PlainOne at h
    rw [iterOne, countOne]
    exact C95_iteration command prefixes body h
  | .control, _ => by simp [iterOne, countOne]
  | .included none, _ => by simp [iterOne, countOne]
  | .included (some body), h => by
    unfold PlainOne at h
    rw [iterOne, countOne]
    exact C95_iteration command prefixes body h
end

/-! ### Samples and limits -/

def net (lines : List String) : List Elem := lines.map (fun s => .comp (some s.toList))

def names (l : List String) : List Str := l.map String.toList

def got (l : List String) : Option (List Str) := (allNodes Props.CompLine.ascii (net l)).toOption

/-- C95 sample. -/
theorem C95_sample : got ["R1 in out 1k\n", "C1 out 0 1n\n", "M1 d in 0 NMOS W=1u\n", "X1 out d SUB k=1\n"] = some (names ["in", "out", "0", "d"]) := by
  decide +kernel

/-- C95 sample: the hypothesis of `C95_nodes`. -/
theorem C95_applies : List.Forall₂ (Written Props.CompLine.ascii) [.text "* c\n".toList, .comp (some (Props.CompLine.exR.text ++ ['\n']))]
    [[], Props.CompLine.exR.nodes.map Prod.snd] :=
  .cons (.passed _ (by intro obj h; cases h)) (.cons (.line _ _ Props.CompLine.exR_ok.1) .nil)

/-- Limits: the controlling nodes of controlled sources are missing, the inductors of a coupling are given as nodes, a line that is not
understood is passed over, names in another case are other nodes, a continued line of a source is not understood. -/
theorem C95_limits : got ["E1 a b c d 5\n"] = some (names ["a", "b"]) ∧ got ["K1 L1 L2 0.9\n"] = some (names ["L1", "L2"]) ∧
    got ["r1 a b 1k\n"] = some [] ∧ got ["R1 a b 1k\n", "R2 A B 1k\n"] = some (names ["a", "b", "A", "B"]) ∧
    got ["V1 a b PULSE(0\n+ 1)\n"] = some [] := by
  refine ⟨?_, ?_, ?_, ?_, ?_⟩ <;> decide +kernel

/-- C95 sample: a circuit with a directive, two components and a sub-circuit with one. -/
theorem C95_iteration_sample : (iter (fun s => some (s.take 1)) [['R'], ['C']]
    [.text ".op".toList, .comp (some "R1 a b 1".toList), .comp (some "W1 a b 1".toList), .circuit [.comp (some "C1 a b 1".toList), .prim "* x".toList], .control]).toOption =
    some [⟨none, none, [], none⟩, ⟨none, none, [], none⟩] := by decide +kernel

end Props.Nodes
