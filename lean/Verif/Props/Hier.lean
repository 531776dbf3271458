import Verif.Lemmas.Hier7
import Mathlib.Data.List.Induction
/-
C33: editing the value of a component. C34: components inside sub-circuit instances. The value at a path is what is `seen`
there (Spec.Hier), the states are those reachable from a loaded netlist by reading and setting values (`Reach`).
-/
namespace Props.Hier
open Model.PyStr Model.Hier Spec.Hier Lemmas.Hier
open Model.Netlist (Str)

theorem step_inv (numeric : Str → Bool) (ed : Ed) (op : Op) (hI : Inv ed) : Inv (step numeric ed op) ∧ (step numeric ed op).perm = ed.perm := by
  cases op with
  | get p =>
    unfold step
    rcases get_spec numeric ed p hI with ⟨e, h, _⟩ | ⟨ed', x, h, _, _, h1, h2, _⟩
    · simp only [h]; exact ⟨hI, trivial⟩
    · simp only [h]; exact ⟨h1, h2⟩
  | set p v =>
    unfold step
    rcases set_spec numeric ed p v hI with ⟨e, h, _⟩ | ⟨_, ed', x, _, h, _, h1, h2, _⟩ | ⟨_, _, ed', h, h1⟩
    · simp only [h]; exact ⟨hI, trivial⟩
    · simp only [h]; exact ⟨h1, h2⟩
    · simp only [h]; exact ⟨h1.inv, h1.perm⟩

theorem run_inv (numeric : Str → Bool) (ops : List Op) : ∀ (ed : Ed), Inv ed → Inv (run numeric ed ops) ∧ (run numeric ed ops).perm = ed.perm := by
  induction ops with
  | nil => intro ed h; exact ⟨h, rfl⟩
  | cons op ops ih =>
    intro ed h
    have h1 := step_inv numeric ed op h
    have h2 := ih (step numeric ed op) h1.1
    exact ⟨h2.1, h2.2.trans h1.2⟩

theorem reach_inv {numeric : Str → Bool} {ed : Ed} (h : Reach numeric ed) : Inv ed := by
  obtain ⟨ed0, ops, h0, rfl⟩ := h
  exact (run_inv numeric ops ed0 (Loaded.inv h0)).1

theorem reach_step {numeric : Str → Bool} {ed : Ed} (h : Reach numeric ed) (ops : List Op) : Reach numeric (run numeric ed ops) := by
  obtain ⟨ed0, ops0, h0, rfl⟩ := h
  exact ⟨ed0, ops0 ++ ops, h0, by simp [run]⟩

/-! ### A demonstration netlist

```
* title
R1 a b 1k
X1 a b amp
X2 a b amp
.SUBCKT amp i o
R1 i o 10k
XI i o buf
.SUBCKT buf i o
R9 i o 5
.ENDS
.ENDS
```
-/
def demoBuf : Net := .comp "R9".toList 6 .nil
def demoAmp : Net := .comp "R1".toList 4 (.inst "XI".toList 5 (.circ "buf".toList demoBuf .nil))
def demoNet : Net := .text (.comp "R1".toList 0 (.inst "X1".toList 1 (.inst "X2".toList 2 (.circ "amp".toList demoAmp .nil))))
def demoVals : Nat → Str := fun i => (["1k".toList, "amp".toList, "amp".toList, [], "10k".toList, "buf".toList, "5".toList] : List Str).getD i []
def demo : Ed := ⟨.inform, demoNet, ⟨demoVals, 7⟩, []⟩
def words (l : List String) : List Str := l.map String.toList
def noNum : Str → Bool := fun _ => false

example : Loaded demo := ⟨by simp [demo, demoNet, demoAmp, demoBuf, Spec.Hier.Pure], by decide, by decide⟩

/-! ### C34 -/

/-- Reading: get_component_value returns the value seen at the path, and reading — which makes copies of sub-circuits —
changes nothing that is seen anywhere, and records nothing; it fails exactly where nothing is seen. -/
theorem C34_read (numeric : Str → Bool) (ed : Ed) (hr : Reach numeric ed) (path : List Str) :
    (∀ e, getValue numeric ed path = .error e → seen numeric ed path = none) ∧
    (∀ ed' x, getValue numeric ed path = .ok (ed', x) → seen numeric ed path = some x ∧ (∀ q, seen numeric ed' q = seen numeric ed q) ∧ ed'.calls = ed.calls) := by
  rcases get_spec numeric ed path (reach_inv hr) with ⟨e, h, h1⟩ | ⟨ed', x, h, h1, h2, _, _, h3, _⟩
  · refine ⟨fun _ _ => h1, fun ed' x hx => ?_⟩
    rw [h] at hx; cases hx
  · refine ⟨fun e he => ?_, fun ed'' x' hx => ?_⟩
    · rw [h] at he; cases he
    · rw [h] at hx; cases hx; exact ⟨h1, h2, h3⟩

/-- Setting: where a value is seen (and edits are allowed) set_component_value succeeds, and the new value is then seen there. -/
theorem C34_read_your_write (numeric : Str → Bool) (ed : Ed) (hr : Reach numeric ed) (path : List Str) (v : Str)
    (hp : ed.perm ≠ .deny) (hs : (seen numeric ed path).isSome = true) :
    (setValue numeric ed path v).2 = none ∧ seen numeric (setValue numeric ed path v).1 path = some v ∧
    ∃ ed'', getValue numeric (setValue numeric ed path v).1 path = .ok (ed'', v) := by
  rcases set_spec numeric ed path v (reach_inv hr) with ⟨e, _, h1⟩ | ⟨hd, _⟩ | ⟨_, _, ed', h, h1⟩
  · rw [h1] at hs; cases hs
  · exact (hp hd).elim
  · rw [h]
    refine ⟨rfl, h1.now, ?_⟩
    rcases get_spec numeric ed' path h1.inv with ⟨e, g, g1⟩ | ⟨ed'', x, g, g1, _⟩
    · rw [h1.now] at g1; cases g1
    · rw [h1.now] at g1; cases g1; exact ⟨ed'', g⟩

example : seen noNum (run noNum demo [.set (words ["X1", "R1"]) "22k".toList]) (words ["x1", "r1"]) = some "22k".toList := by decide +kernel
example : seen noNum demo (words ["X1", "XI", "R9"]) = some "5".toList := by decide +kernel

/-- Locality: whatever set_component_value does (also when it fails), the values seen at all paths that diverge from the
path set are unchanged. -/
theorem C34_other_paths (numeric : Str → Bool) (ed : Ed) (hr : Reach numeric ed) (path q : List Str) (v : Str) (ha : Apart path q) :
    seen numeric (setValue numeric ed path v).1 q = seen numeric ed q := by
  rcases set_spec numeric ed path v (reach_inv hr) with ⟨e, h, _⟩ | ⟨_, ed', x, _, h, h1, _⟩ | ⟨_, _, ed', h, h1⟩
  · rw [h]
  · rw [h]; exact h1 q
  · rw [h]; exact h1.apart q ha.1 ha.2

/-- In particular: an edit below one instance is not seen below any other instance, at any depth, although both were made
from the same definition. -/
theorem C34_other_instances (numeric : Str → Bool) (ed : Ed) (hr : Reach numeric ed) (common : List Str) (i j : Str) (p q : List Str) (v : Str)
    (hij : upper i ≠ upper j) :
    seen numeric (setValue numeric ed (common ++ i :: p) v).1 (common ++ j :: q) = seen numeric ed (common ++ j :: q) := by
  refine C34_other_paths numeric ed hr _ _ v ⟨?_, ?_⟩
  · rw [List.map_append, List.map_append]
    intro h
    have := List.prefix_append_right_inj _ |>.1 h
    simp only [List.map_cons, List.cons_prefix_cons] at this
    exact hij this.1
  · rw [List.map_append, List.map_append]
    intro h
    have := List.prefix_append_right_inj _ |>.1 h
    simp only [List.map_cons, List.cons_prefix_cons] at this
    exact hij this.1.symm

example : seen noNum (run noNum demo [.set (words ["X1", "R1"]) "22k".toList]) (words ["X2", "R1"]) = some "10k".toList ∧
    seen noNum (run noNum demo [.set (words ["X1", "XI", "R9"]) "7".toList]) (words ["X2", "XI", "R9"]) = some "5".toList ∧
    seen noNum (run noNum demo [.set (words ["X1", "XI", "R9"]) "7".toList]) (words ["X1", "XI", "R9"]) = some "7".toList := by decide +kernel

theorem shown_congr (v v' : Nat → Str) : ∀ n : Net, (∀ a ∈ addrs n, v a = v' a) → shown v n = shown v' n := by
  intro n
  induction n with
  | nil => intro _; rfl
  | text r ih => exact ih
  | bad r ih => exact ih
  | comp ref a r ih => intro h; simp only [shown]; rw [h a (by simp [addrs]), ih (fun x hx => h x (by simp [addrs, hx]))]
  | inst ref a r ih => intro h; simp only [shown]; rw [h a (by simp [addrs]), ih (fun x hx => h x (by simp [addrs, hx]))]
  | opened ref a nm b m r _ ih => intro h; simp only [shown]; rw [h a (by simp [addrs]), ih (fun x hx => h x (by simp [addrs, hx]))]
  | circ nm b r ihb ih => intro h; simp only [shown]; rw [ihb (fun x hx => h x (by simp [addrs, hx])), ih (fun x hx => h x (by simp [addrs, hx]))]

/-- The sub-circuit definitions of the netlist, with all the values in them, are never changed by edits of instances. -/
theorem C34_definitions_unchanged (numeric : Str → Bool) (ed : Ed) (hr : Reach numeric ed) (ops : List Op) (name : Str) :
    (findCirc name (run numeric ed ops).net).map (shown (run numeric ed ops).store.vals) = (findCirc name ed.net).map (shown ed.store.vals) := by
  induction ops using List.reverseRecOn with
  | nil => rfl
  | append_singleton ops op ih =>
    rw [← ih]
    have hI := reach_inv (reach_step hr ops)
    have hrun : run numeric ed (ops ++ [op]) = step numeric (run numeric ed ops) op := by simp [run]
    rw [hrun]
    generalize run numeric ed ops = e at hI
    have key : ∀ e' : Ed, (∀ name, findCirc name e'.net = findCirc name e.net) →
        (∀ name b, findCirc name e.net = some b → ∀ a ∈ addrs b, e'.store.vals a = e.store.vals a) →
        (findCirc name e'.net).map (shown e'.store.vals) = (findCirc name e.net).map (shown e.store.vals) := by
      intro e' h1 h2
      rw [h1]
      cases hf : findCirc name e.net with
      | none => rfl
      | some b => simp only [Option.map_some]; rw [shown_congr _ _ b (h2 name b hf)]
    have lift : ∀ e' : Ed, (∀ a, a < e.store.fresh → e'.store.vals a = e.store.vals a) →
        ∀ name b, findCirc name e.net = some b → ∀ a ∈ addrs b, e'.store.vals a = e.store.vals a :=
      fun e' h name b hb a ha => h a (hI.lt a (find_addrs name e.net b hb a ha))
    cases op with
    | get p =>
      unfold step
      rcases get_spec numeric e p hI with ⟨x, h, _⟩ | ⟨ed', x, h, _, _, _, _, _, h1, h2, _⟩
      · simp only [h]
      · simp only [h]; exact key ed' h1 (lift ed' h2)
    | set p v =>
      unfold step
      rcases set_spec numeric e p v hI with ⟨x, h, _⟩ | ⟨_, ed', x, _, h, _, _, _, _, h1, h2, _⟩ | ⟨_, _, ed', h, h1⟩
      · simp only [h]
      · simp only [h]; exact key ed' h1 (lift ed' h2)
      · simp only [h]; exact key ed' h1.circs h1.defs

example : findCirc "amp".toList demo.net = some demoAmp ∧ shown demo.store.vals demoAmp = [("R1".toList, "10k".toList), ("XI".toList, "buf".toList), ("R9".toList, "5".toList)] := by
  decide +kernel

/-- Edits accumulate: after any history of reading and setting, the value seen at a path is the one last set there, or the
original one, provided every other path set in the history diverges from it (that is, no instance on the way was itself
given another sub-circuit, and the path is not that of an instance whose inside was edited). -/
theorem C34_history (numeric : Str → Bool) (q : List Str) : ∀ (ops : List Op) (ed : Ed) (x : Str), Reach numeric ed → ed.perm ≠ .deny → seen numeric ed q = some x →
    (∀ p v, Op.set p v ∈ ops → p.map upper = q.map upper ∨ Apart p q) →
    seen numeric (run numeric ed ops) q = some (lastSet q x ops) := by
  intro ops
  induction ops with
  | nil => intro ed x _ _ h _; exact h
  | cons op ops ih =>
    intro ed x hr hp h ha
    have hr2 : Reach numeric (step numeric ed op) := reach_step hr [op]
    have hp2 : (step numeric ed op).perm ≠ .deny := by rw [(step_inv numeric ed op (reach_inv hr)).2]; exact hp
    have rest : ∀ p v, Op.set p v ∈ ops → p.map upper = q.map upper ∨ Apart p q := fun p v hv => ha p v (List.mem_cons_of_mem _ hv)
    have run1 : run numeric ed (op :: ops) = run numeric (step numeric ed op) ops := rfl
    rw [run1]
    cases op with
    | get p =>
      refine ih _ x hr2 hp2 ?_ rest
      unfold step
      rcases get_spec numeric ed p (reach_inv hr) with ⟨e, g, _⟩ | ⟨ed', y, g, _, g1, _⟩
      · simp only [g]; exact h
      · simp only [g]; rw [g1 q]; exact h
    | set p v =>
      unfold lastSet
      rcases ha p v List.mem_cons_self with hpq | hpq
      · rw [if_pos hpq]
        refine ih _ v hr2 hp2 ?_ rest
        have hs : seen numeric ed p = some x := by
          unfold seen at h ⊢; rw [hpq]; exact h
        have := (C34_read_your_write numeric ed hr p v hp (by rw [hs]; rfl)).2.1
        unfold step
        unfold seen at this ⊢
        rw [← hpq]; exact this
      · have hne : ¬ p.map upper = q.map upper := fun e => hpq.1 (by rw [e]; exact List.prefix_refl _)
        rw [if_neg hne]
        refine ih _ x hr2 hp2 ?_ rest
        unfold step
        rw [C34_other_paths numeric ed hr p q v hpq]; exact h

example : lastSet (words ["X1", "R1"]) "10k".toList [.set (words ["x1", "r1"]) "1".toList, .get (words ["X2", "R1"]), .set (words ["X2", "R1"]) "2".toList] = "1".toList ∧
    seen noNum (run noNum demo [.set (words ["x1", "r1"]) "1".toList, .get (words ["X2", "R1"]), .set (words ["X2", "R1"]) "2".toList]) (words ["X1", "R1"]) = some "1".toList := by
  decide +kernel

/-- The copy at `c` is not marked as modified as long as nothing below `c` was set. -/
theorem unmarked_run (numeric : Str → Bool) (c : List Str) : ∀ (ops : List Op) (ed : Ed), Inv ed → markedAt (c.map upper) ed.net = false →
    (∀ p v, Op.set p v ∈ ops → c.map upper <+: p.map upper → c.map upper = p.map upper) → markedAt (c.map upper) (run numeric ed ops).net = false := by
  intro ops
  induction ops with
  | nil => intro ed _ h _; exact h
  | cons op ops ih =>
    intro ed hI h ha
    refine ih (step numeric ed op) (step_inv numeric ed op hI).1 ?_ (fun p v hv => ha p v (List.mem_cons_of_mem _ hv))
    cases op with
    | get p =>
      unfold step
      rcases get_spec numeric ed p hI with ⟨e, g, _⟩ | ⟨ed', y, g, _, _, _, _, _, _, _, g1⟩
      · simp only [g]; exact h
      · simp only [g]; rw [← g1]; exact h
    | set p v =>
      unfold step
      rcases set_spec numeric ed p v hI with ⟨x, g, _⟩ | ⟨_, ed', x, _, g, _, _, _, _, _, _, g1⟩ | ⟨_, _, ed', g, g1⟩
      · simp only [g]; exact h
      · simp only [g]; rw [← g1]; exact h
      · simp only [g]
        cases hm : markedAt (c.map upper) ed'.net with
        | false => rfl
        | true =>
          have := g1.unmarks _ (ha p v List.mem_cons_self) hm
          rw [h] at this; cases this

/-- The first edit inside an instance renames this instance, and every instance on the way to the component: its value
becomes the name of its copy, that of the sub-circuit and of the instance joined by "_". The netlist was loaded, and then
any values were read and set, but none below this instance (`path.take (k + 1)`). -/
theorem C34_instances_renamed (numeric : Str → Bool) (ed0 : Ed) (hl : Loaded ed0) (hp : ed0.perm = .inform) (ops : List Op) (path : List Str) (v : Str) (k : Nat)
    (hk : k + 1 < path.length)
    (ho : ∀ p w, Op.set p w ∈ ops → (path.take (k + 1)).map upper <+: p.map upper → (path.take (k + 1)).map upper = p.map upper)
    (hs : (seen numeric (run numeric ed0 ops) path).isSome = true) :
    ∃ ref old : Str, (path[k]?).map upper = some (upper ref) ∧ seen numeric (run numeric ed0 ops) (path.take (k + 1)) = some old ∧
      seen numeric (setValue numeric (run numeric ed0 ops) path v).1 (path.take (k + 1)) = some (old ++ '_' :: ref) := by
  have hun := unmarked_run numeric (path.take (k + 1)) ops ed0 (Loaded.inv hl) (mark_pure _ _ hl.noCopies) ho
  have hI := run_inv numeric ops ed0 (Loaded.inv hl)
  generalize run numeric ed0 ops = ed at hun hI hs
  rcases set_spec numeric ed path v hI.1 with ⟨e, _, h1⟩ | ⟨hd, _⟩ | ⟨_, _, ed', h, h1⟩
  · rw [h1] at hs; cases hs
  · rw [hI.2, hp] at hd; cases hd
  · rw [h]
    obtain ⟨via, ref, hvia, hcell, _⟩ := h1.via
    have hlen : (path.map upper).length = via.length + 1 := by rw [← hvia]; simp
    rw [List.length_map] at hlen
    have hkv : k < via.length := by omega
    obtain ⟨x, hx⟩ : ∃ x, via[k]? = some x := ⟨via[k], List.getElem?_eq_getElem hkv⟩
    obtain ⟨old, g1, g2, g3, _, g5⟩ := hcell k x hx (path.take (k + 1)) (by rw [List.map_take])
    refine ⟨x.ref, old, ?_, g1, ?_⟩
    · have := congrArg (fun l : List Str => l[k]?) hvia
      rw [List.getElem?_append_left (by simpa using hkv), List.getElem?_map, List.getElem?_map, hx] at this
      exact this.symm
    · have hxm : x.modified = false := by rw [← g3]; exact hun
      rw [g5, if_pos ⟨hI.2.trans hp, hxm⟩, g2 hxm]

example : seen noNum (run noNum demo [.get (words ["X1", "R1"]), .set (words ["X1", "XI", "R9"]) "7".toList]) (words ["X1"]) = some "amp_X1".toList ∧
    seen noNum (run noNum demo [.get (words ["X1", "R1"]), .set (words ["X1", "XI", "R9"]) "7".toList]) (words ["X1", "XI"]) = some "buf_XI".toList := by decide +kernel

/-- An instance is renamed once only: after a value was set below it, its value does not change with any further reading
and setting, below it or elsewhere, except when it (or an instance around it) is itself given a value. -/
theorem C34_renamed_once (numeric : Str → Bool) (ed : Ed) (hr : Reach numeric ed) (hp : ed.perm = .inform) (path : List Str) (v : Str) (k : Nat)
    (hk : k + 1 < path.length) (hs : (seen numeric ed path).isSome = true) (ops : List Op)
    (ho : ∀ p w, Op.set p w ∈ ops → ¬ p.map upper <+: (path.take (k + 1)).map upper) :
    seen numeric (run numeric (setValue numeric ed path v).1 ops) (path.take (k + 1)) = seen numeric (setValue numeric ed path v).1 (path.take (k + 1)) := by
  have hI := reach_inv hr
  rcases set_spec numeric ed path v hI with ⟨e, _, h1⟩ | ⟨hd, _⟩ | ⟨_, _, ed', h, h1⟩
  · rw [h1] at hs; cases hs
  · rw [hp] at hd; cases hd
  · rw [h]
    simp only
    have hmark : markedAt ((path.take (k + 1)).map upper) ed'.net = true := by
      obtain ⟨via, ref, hvia, hcell, _⟩ := h1.via
      have hlen : (path.map upper).length = via.length + 1 := by rw [← hvia]; simp
      rw [List.length_map] at hlen
      have hkv : k < via.length := by omega
      obtain ⟨old, _, _, _, g4, _⟩ := hcell k via[k] (List.getElem?_eq_getElem hkv) (path.take (k + 1)) (by rw [List.map_take])
      exact g4 hp
    have hclen : (path.take (k + 1)).length = k + 1 := by rw [List.length_take]; omega
    have hp' : ed'.perm = .inform := h1.perm.trans hp
    have hI' := h1.inv
    clear h1 h hr hI hs hp
    generalize path.take (k + 1) = c at hmark ho hclen
    -- the history
    revert hmark hp' hI'
    induction ops generalizing ed' with
    | nil => intro _ _ _; rfl
    | cons op ops ih =>
      intro hp' hI' hmark
      have st := step_inv numeric ed' op hI'
      have base : seen numeric (step numeric ed' op) c = seen numeric ed' c ∧ markedAt (c.map upper) (step numeric ed' op).net = true := by
        cases op with
        | get p =>
          unfold step
          rcases get_spec numeric ed' p hI' with ⟨e, g, _⟩ | ⟨ed2, y, g, _, g0, _, _, _, _, _, g1⟩
          · simp only [g]; exact ⟨trivial, hmark⟩
          · simp only [g]; exact ⟨g0 c, by rw [← g1]; exact hmark⟩
        | set p w =>
          have hnp := ho p w List.mem_cons_self
          unfold step
          rcases set_spec numeric ed' p w hI' with ⟨x, g, _⟩ | ⟨_, ed2, x, _, g, g0, _, _, _, _, _, g1⟩ | ⟨_, _, ed2, g, g1⟩
          · simp only [g]; exact ⟨trivial, hmark⟩
          · simp only [g]; exact ⟨g0 c, by rw [← g1]; exact hmark⟩
          · simp only [g]
            refine ⟨?_, g1.marks _ hnp hmark⟩
            by_cases hcp : c.map upper <+: p.map upper
            · -- the instance is on the way
              obtain ⟨via, ref, hvia, hcell, _⟩ := g1.via
              have hlen : (p.map upper).length = via.length + 1 := by rw [← hvia]; simp
              have hle := hcp.length_le
              have hct : c.map upper = (p.map upper).take (k + 1) := by
                have := List.prefix_iff_eq_take.1 hcp
                rw [List.length_map, hclen] at this
                exact this
              have hne : (c.map upper).length ≠ (p.map upper).length := fun e => hnp (by rw [hcp.eq_of_length e]; exact List.prefix_refl _)
              have hkv : k < via.length := by rw [List.length_map, hclen] at hle hne; omega
              obtain ⟨old, e1, _, e3, _, e5⟩ := hcell k via[k] (List.getElem?_eq_getElem hkv) c hct
              rw [e5, e1]
              have : via[k].modified = true := by rw [← e3]; exact hmark
              simp [this]
            · exact g1.apart c hnp hcp
      have := ih (ed' := step numeric ed' op) (ho := fun p w hw => ho p w (List.mem_cons_of_mem _ hw)) (st.2.trans hp') st.1 base.2
      have run1 : run numeric ed' (op :: ops) = run numeric (step numeric ed' op) ops := rfl
      rw [run1, this, base.1]

example : seen noNum (run noNum demo [.set (words ["X1", "R1"]) "7".toList, .set (words ["X1", "R1"]) "8".toList, .set (words ["X1", "XI", "R9"]) "9".toList,
    .set (words ["X2", "R1"]) "9".toList]) (words ["X1"]) = some "amp_X1".toList := by decide +kernel

theorem upper_append (a b : Str) : upper (a ++ b) = upper a ++ upper b := by simp [upper]

theorem fullRef_written (via : List Step) (ref : Str) : fullRef via ref = written (via.map Step.ref ++ [ref]) := by
  induction via with
  | nil => rfl
  | cons x xs ih =>
    have h1 : fullRef (x :: xs) ref = x.ref ++ ':' :: fullRef xs ref := rfl
    rw [h1, ih]
    cases xs <;> rfl

theorem written_upper : ∀ p : List Str, upper (written p) = written (p.map upper) := by
  intro p
  induction p with
  | nil => rfl
  | cons r p ih =>
    cases p with
    | nil => rfl
    | cons r2 p =>
      have h1 : written (r :: r2 :: p) = r ++ ':' :: written (r2 :: p) := rfl
      have h2 : written ((r :: r2 :: p).map upper) = upper r ++ ':' :: written ((r2 :: p).map upper) := rfl
      rw [h1, h2, upper_append, ← ih]
      rfl

/-- The journal: a successful edit records, last, the full path of the component (as written in the netlist, so up to letter
case) with the value; before it only the copies made and the renamed instances are recorded. -/
theorem C34_journal (numeric : Str → Bool) (ed : Ed) (hr : Reach numeric ed) (path : List Str) (v : Str) (hp : ed.perm = .inform)
    (hs : (seen numeric ed path).isSome = true) :
    ∃ (renames : List (Str × Str × Model.Updates.UpdateType)) (name : Str), upper name = upper (written path) ∧
      (setValue numeric ed path v).1.calls = ed.calls ++ renames ++ [(name, v, .updateComponentValue)] ∧
      ∀ c ∈ renames, c.2.2 = .updateComponentValue → ∃ k, k + 1 < path.length ∧ upper c.1 = upper (written (path.take (k + 1))) ∧
        seen numeric (setValue numeric ed path v).1 (path.take (k + 1)) = some c.2.1 := by
  rcases set_spec numeric ed path v (reach_inv hr) with ⟨e, _, h1⟩ | ⟨hd, _⟩ | ⟨_, _, ed', h, h1⟩
  · rw [h1] at hs; cases hs
  · rw [hp] at hd; cases hd
  · rw [h]
    obtain ⟨via, ref, hvia, hcell, _, hcalls⟩ := h1.via
    obtain ⟨rn, hc1, hc2⟩ := hcalls hp
    have hlen : (path.map upper).length = via.length + 1 := by rw [← hvia]; simp
    rw [List.length_map] at hlen
    refine ⟨rn, fullRef via ref, ?_, hc1, ?_⟩
    · rw [fullRef_written, written_upper, written_upper, ← hvia]; simp [Function.comp_def]
    · intro c hc hcu
      rcases hc2 c hc with h2 | ⟨k, x, hx, hm, rfl⟩
      · exact (h2 hcu).elim
      · have hkv : k < via.length := (List.getElem?_eq_some_iff.1 hx).1
        refine ⟨k, by omega, ?_, ?_⟩
        · have hpre : (path.take (k + 1)).map upper = ((via.take k).map Step.ref ++ [x.ref]).map upper := by
            rw [List.map_take, ← hvia, List.take_append_of_le_length (by simp; omega), ← List.map_take, List.take_add_one, hx]
            simp [Function.comp_def]
          simp only
          rw [fullRef_written, written_upper, written_upper, hpre]
        · obtain ⟨old, _, _, _, _, g5⟩ := hcell k x hx (path.take (k + 1)) (by rw [List.map_take])
          rw [g5, if_pos ⟨hp, hm⟩]

example : (setValue noNum demo (words ["x1", "r1"]) "7".toList).1.calls = [("CLONE(amp)".toList, "amp".toList, .cloneSubcircuit),
    ("X1".toList, "amp_X1".toList, .updateComponentValue), ("X1:R1".toList, "7".toList, .updateComponentValue)] := by decide +kernel

/-- FINDING: a sub-circuit whose name reads as a number (741, 2N2222 → "2n…") is never found, although the netlist defines it:
nothing inside such an instance can be read or edited. -/
theorem C34_numeric_name_unreachable (numeric : Str → Bool) (ed : Ed) (ref : Str) (a : Nat) (rest : Net) (q : Str) (p : List Str) (v : Str)
    (hn : ed.net = .inst ref a rest) (hv : numeric (ed.store.vals a) = true) (hX : (upper ref).head? = some 'X') :
    setValue numeric ed (ref :: q :: p) v = (ed, some (.lookup .noDefinition)) ∧ getValue numeric ed (ref :: q :: p) = .error .noDefinition := by
  have h : locate numeric false ((ref :: q :: p).map upper) [] ed.net ed.store = .error .noDefinition := by
    simp only [List.map_cons]
    unfold locate
    rw [if_pos hX, hn]
    unfold walk
    simp [sameRef, definition, hv]
  unfold setValue getValue
  rw [h]
  exact ⟨rfl, rfl⟩

example : (findCirc "741".toList (.inst "X1".toList 0 (.circ "741".toList demoBuf .nil))).isSome = true := by decide

/-! ### C33 -/

/-- References are case-insensitive: only the upper-cased parts matter. -/
theorem C33_case_insensitive (numeric : Str → Bool) (ed : Ed) (p p' : List Str) (v : Str) (h : p.map upper = p'.map upper) :
    setValue numeric ed p v = setValue numeric ed p' v ∧ getValue numeric ed p = getValue numeric ed p' := by
  unfold setValue getValue
  rw [h]
  exact ⟨rfl, rfl⟩

/-- A missing reference raises and changes nothing at all. -/
theorem C33_missing (numeric : Str → Bool) (ed : Ed) (hr : Reach numeric ed) (path : List Str) (v : Str) (h : seen numeric ed path = none) :
    ∃ e, setValue numeric ed path v = (ed, some (.lookup e)) := by
  rcases set_spec numeric ed path v (reach_inv hr) with ⟨e, h1, _⟩ | ⟨_, _, x, hx, _⟩ | ⟨_, hs, _⟩
  · exact ⟨e, h1⟩
  · rw [h] at hx; cases hx
  · rw [h] at hs; cases hs

example : setValue noNum demo (words ["R7"]) "1".toList = (demo, some (.lookup .notFound)) := by
  obtain ⟨e, h⟩ := C33_missing noNum demo ⟨demo, [], ⟨by simp [demo, demoNet, demoAmp, demoBuf, Spec.Hier.Pure], by decide, by decide⟩, rfl⟩ (words ["R7"]) "1".toList (by decide +kernel)
  rw [h]
  have : (setValue noNum demo (words ["R7"]) "1".toList).2 = some (.lookup .notFound) := by decide +kernel
  rw [h] at this
  simpa using this

theorem walk_top (numeric : Str → Bool) (mark : Bool) (up : Str) (sc : List Net) : ∀ (n : Net) (s : Store) (f : Found), walk numeric mark up none sc n s = .ok f →
    f.net = n ∧ f.store = s ∧ f.via = [] := by
  intro n
  induction n with
  | nil => intro s f h; simp [walk] at h
  | bad r ih => intro s f h; simp [walk] at h
  | text r ih =>
    intro s f h
    unfold walk at h
    cases hw : walk numeric mark up none sc r s with
    | error e => rw [hw] at h; cases h
    | ok g => rw [hw] at h; cases h; obtain ⟨h1, h2, h3⟩ := ih s g hw; exact ⟨by simp [h1], h2, h3⟩
  | comp ref a r ih =>
    intro s f h
    unfold walk at h
    by_cases hm : sameRef ref up = true
    · rw [if_pos hm] at h; cases h; exact ⟨rfl, rfl, rfl⟩
    · rw [if_neg hm] at h
      cases hw : walk numeric mark up none sc r s with
      | error e => rw [hw] at h; cases h
      | ok g => rw [hw] at h; cases h; obtain ⟨h1, h2, h3⟩ := ih s g hw; exact ⟨by simp [h1], h2, h3⟩
  | inst ref a r ih =>
    intro s f h
    unfold walk at h
    by_cases hm : sameRef ref up = true
    · rw [if_pos hm] at h; cases h; exact ⟨rfl, rfl, rfl⟩
    · rw [if_neg hm] at h
      cases hw : walk numeric mark up none sc r s with
      | error e => rw [hw] at h; cases h
      | ok g => rw [hw] at h; cases h; obtain ⟨h1, h2, h3⟩ := ih s g hw; exact ⟨by simp [h1], h2, h3⟩
  | opened ref a nm b m r _ ih =>
    intro s f h
    unfold walk at h
    by_cases hm : sameRef ref up = true
    · rw [if_pos hm] at h; cases h; exact ⟨rfl, rfl, rfl⟩
    · rw [if_neg hm] at h
      cases hw : walk numeric mark up none sc r s with
      | error e => rw [hw] at h; cases h
      | ok g => rw [hw] at h; cases h; obtain ⟨h1, h2, h3⟩ := ih s g hw; exact ⟨by simp [h1], h2, h3⟩
  | circ nm b r _ ih =>
    intro s f h
    unfold walk at h
    by_cases hm : sameRef nm up = true
    · rw [if_pos hm] at h; cases h
    · rw [if_neg hm] at h
      cases hw : walk numeric mark up none sc r s with
      | error e => rw [hw] at h; cases h
      | ok g => rw [hw] at h; cases h; obtain ⟨h1, h2, h3⟩ := ih s g hw; exact ⟨by simp [h1], h2, h3⟩

theorem walk_outline (numeric : Str → Bool) (mark : Bool) (up : Str) (down : Option (List Net → Net → Store → Except LErr Found)) (sc : List Net) :
    ∀ (n : Net) (s : Store) (f : Found), walk numeric mark up down sc n s = .ok f → outline f.net = outline n := by
  intro n
  induction n with
  | nil => intro s f h; simp [walk] at h
  | bad r ih => intro s f h; simp [walk] at h
  | text r ih =>
    intro s f h
    unfold walk at h
    cases hw : walk numeric mark up down sc r s with
    | error e => rw [hw] at h; cases h
    | ok g => rw [hw] at h; cases h; simp [outline, ih s g hw]
  | comp ref a r ih =>
    intro s f h
    unfold walk at h
    by_cases hm : sameRef ref up = true
    · rw [if_pos hm] at h
      cases down with
      | none => cases h; rfl
      | some k => cases h
    · rw [if_neg hm] at h
      cases hw : walk numeric mark up down sc r s with
      | error e => rw [hw] at h; cases h
      | ok g => rw [hw] at h; cases h; simp [outline, ih s g hw]
  | inst ref a r ih =>
    intro s f h
    unfold walk at h
    by_cases hm : sameRef ref up = true
    · rw [if_pos hm] at h
      cases down with
      | none => cases h; rfl
      | some k =>
        simp only at h
        cases hdef : definition numeric sc (s.vals a) with
        | none => rw [hdef] at h; cases h
        | some b =>
          rw [hdef] at h
          simp only [clone] at h
          cases hk1 : k sc (.text (cloneBody b s).1) (cloneBody b s).2 with
          | error e => rw [hk1] at h; cases h
          | ok g => rw [hk1] at h; cases h; rfl
    · rw [if_neg hm] at h
      cases hw : walk numeric mark up down sc r s with
      | error e => rw [hw] at h; cases h
      | ok g => rw [hw] at h; cases h; simp [outline, ih s g hw]
  | opened ref a nm b m r _ ih =>
    intro s f h
    unfold walk at h
    by_cases hm : sameRef ref up = true
    · rw [if_pos hm] at h
      cases down with
      | none => cases h; rfl
      | some k =>
        simp only at h
        cases hk1 : k sc b s with
        | error e => rw [hk1] at h; cases h
        | ok g => rw [hk1] at h; cases h; rfl
    · rw [if_neg hm] at h
      cases hw : walk numeric mark up down sc r s with
      | error e => rw [hw] at h; cases h
      | ok g => rw [hw] at h; cases h; simp [outline, ih s g hw]
  | circ nm b r _ ih =>
    intro s f h
    unfold walk at h
    by_cases hm : sameRef nm up = true
    · rw [if_pos hm] at h; cases h
    · rw [if_neg hm] at h
      cases hw : walk numeric mark up down sc r s with
      | error e => rw [hw] at h; cases h
      | ok g => rw [hw] at h; cases h; simp [outline, ih s g hw]

theorem locate_outline (numeric : Str → Bool) (mark : Bool) (p : List Str) (sc : List Net) (n : Net) (s : Store) (f : Found)
    (h : locate numeric mark p sc n s = .ok f) : outline f.net = outline n := by
  cases p with
  | nil => simp [locate] at h
  | cons r p =>
    cases p with
    | nil => exact walk_outline numeric mark r none _ n s f h
    | cons r2 p =>
      unfold locate at h
      split_ifs at h
      exact walk_outline numeric mark r _ _ n s f h

theorem drop_outline (up : Str) (dn : Option (Net → Net)) : ∀ n : Net, outline (dropShadow up dn n) = outline n := by
  intro n
  induction n with
  | nil => rfl
  | text r ih => simp [dropShadow, outline, ih]
  | bad r ih => rfl
  | comp ref a r ih => unfold dropShadow; split_ifs <;> simp [outline, ih]
  | inst ref a r ih => unfold dropShadow; split_ifs <;> simp [outline, ih]
  | opened ref a nm b m r _ ih =>
    unfold dropShadow
    split_ifs
    · cases dn <;> rfl
    · simp [outline, ih]
  | circ nm b r _ ih => unfold dropShadow; split_ifs <;> simp [outline, ih]

/-- Lines: editing a value, anywhere in the hierarchy, successful or not, leaves the number, the kind and the order of the
lines of the netlist unchanged. -/
theorem C33_lines_unchanged (numeric : Str → Bool) (ed : Ed) (path : List Str) (v : Str) :
    outline (setValue numeric ed path v).1.net = outline ed.net := by
  have hdrop : ∀ (p : List Str) (n : Net), outline (dropAt p n) = outline n := by
    intro p n
    cases p with
    | nil => rfl
    | cons r p =>
      cases p with
      | nil => exact drop_outline r none n
      | cons r2 p => exact drop_outline r _ n
  unfold setValue
  cases h0 : locate numeric false (path.map upper) [] ed.net ed.store with
  | error e => rfl
  | ok f =>
    simp only
    by_cases hden : ed.perm = .deny
    · rw [if_pos hden]; exact locate_outline numeric false _ _ _ _ f h0
    · rw [if_neg hden]
      cases h1 : locate numeric (decide (ed.perm = .inform)) (path.map upper) [] ed.net ed.store with
      | error e => rfl
      | ok g =>
        have h2 := locate_outline numeric _ _ _ _ _ g h1
        simp only
        by_cases hi : g.isInst = true
        · simp only [hi, if_true]; rw [hdrop, h2]
        · simp only [hi, if_false]; exact h2

/-- A component of the netlist itself (not an instance): exactly one value changes, everything else is untouched. -/
theorem C33_one_value (numeric : Str → Bool) (ed : Ed) (hr : Reach numeric ed) (ref : Str) (v : Str) (hp : ed.perm ≠ .deny)
    (hs : (seen numeric ed [ref]).isSome = true) :
    seen numeric (setValue numeric ed [ref] v).1 [ref] = some v ∧
    (∀ other : Str, upper other ≠ upper ref → seen numeric (setValue numeric ed [ref] v).1 [other] = seen numeric ed [other]) ∧
    ∃ a : Nat, (setValue numeric ed [ref] v).1.store.vals = fun i => if i = a then v else ed.store.vals i := by
  refine ⟨(C34_read_your_write numeric ed hr [ref] v hp hs).2.1, ?_, ?_⟩
  · intro other ho
    refine C34_other_paths numeric ed hr [ref] [other] v ⟨?_, ?_⟩ <;>
    · intro h
      simp at h
      first | exact ho h | exact ho h.symm
  · unfold setValue
    cases h0 : locate numeric false ([ref].map upper) [] ed.net ed.store with
    | error e =>
      have hI := reach_inv hr
      have := locate_error numeric false _ [] ed.net ed.store e (scope_nil _) hI.static hI.lt hI.nodup h0
      unfold seen at hs
      rw [this] at hs; cases hs
    | ok f =>
      simp only
      rw [if_neg hp]
      cases h1 : locate numeric (decide (ed.perm = .inform)) ([ref].map upper) [] ed.net ed.store with
      | error e =>
        have hI := reach_inv hr
        have := locate_error numeric _ _ [] ed.net ed.store e (scope_nil _) hI.static hI.lt hI.nodup h1
        unfold seen at hs
        rw [this] at hs; cases hs
      | ok g =>
        obtain ⟨h2, h3, h4⟩ := walk_top numeric _ (upper ref) _ ed.net ed.store g h1
        refine ⟨g.a, ?_⟩
        simp only
        rw [h4, h3]
        by_cases hi : ed.perm = .inform <;> simp [hi, beginUpdate, Store.set]

example : seen noNum (run noNum demo [.set (words ["r1"]) "7".toList]) (words ["R1"]) = some "7".toList ∧
    seen noNum (run noNum demo [.set (words ["r1"]) "7".toList]) (words ["X1", "R1"]) = some "10k".toList := by decide +kernel

/-- FINDING: one component line that cannot be parsed (a prefix in lower case, leading blanks) blocks all references that
come after it, which are then reported as errors although the components are there. -/
theorem C33_unparsable_blocks (numeric : Str → Bool) (ed : Ed) (rest : Net) (ref : Str) (v : Str) (hn : ed.net = .bad rest) :
    setValue numeric ed [ref] v = (ed, some (.lookup .unparsable)) ∧ getValue numeric ed [ref] = .error .unparsable := by
  have h : locate numeric false ([ref].map upper) [] ed.net ed.store = .error .unparsable := by
    rw [hn]; rfl
  unfold setValue getValue
  rw [h]
  exact ⟨rfl, rfl⟩

/-! ### C35 (values) -/

/-- A read-only editor: set_component_value raises, no value seen anywhere changes, and nothing is recorded. -/
theorem C35_value_denied (numeric : Str → Bool) (ed : Ed) (hr : Reach numeric ed) (path : List Str) (v : Str) (hp : ed.perm = .deny) :
    (setValue numeric ed path v).2.isSome = true ∧ (∀ q, seen numeric (setValue numeric ed path v).1 q = seen numeric ed q) ∧
    (setValue numeric ed path v).1.calls = ed.calls ∧ (setValue numeric ed path v).1.perm = .deny := by
  rcases set_spec numeric ed path v (reach_inv hr) with ⟨e, h, _⟩ | ⟨_, ed', x, _, h, h1, _, h2, h3, _⟩ | ⟨hd, _⟩
  · rw [h]; exact ⟨rfl, fun _ => rfl, rfl, hp⟩
  · rw [h]; exact ⟨rfl, h1, h3, h2.trans hp⟩
  · exact (hd hp).elim

example : (setValue noNum { demo with perm := .deny } (words ["X1", "R1"]) "7".toList).2 = some .permission := by decide +kernel

end Props.Hier
