import Verif.Model.CompOps
import Mathlib.Tactic.SplitIfs
import Mathlib.Tactic.ByContra
/-
C55 (adding and removing components), C56 (component parameters) and C35 (read-only editors).
-/
namespace Props.CompOps
open Model.CompOps
open Model.PyStr
open Model.Netlist (Str Perm)
open Model.Updates (UpdateType)

/-! ### Specification vocabulary -/

/-- The reference an element answers to, if it is a component or a definition. -/
def nameOf (cells : Nat → Cell) : Item → Option Str
  | .comp id => some (cells id).ref
  | .circ n => some n
  | _ => none

/-- The element answers to the reference, letter case ignored. -/
def Answers (cells : Nat → Cell) (ref : Str) (e : Item) : Prop := (nameOf cells e).map upper = some (upper ref)

/-- No element of the list answers to the reference. -/
def Free (cells : Nat → Cell) (ref : Str) (l : List Item) : Prop := ∀ e ∈ l, ¬ Answers cells ref e

/-- Every component line can be parsed. -/
def Parsable (l : List Item) : Prop := Item.bad ∉ l

/-! ### Lemmas about the search -/

theorem find_append (cells : Nat → Cell) (ref : Str) (a b : List Item) (e : Item) (hf : Free cells ref a) (hp : Parsable a)
    (he : Answers cells ref e) :
    find cells (upper ref) (a ++ e :: b) = .ok (a.length, match e with | .comp id => .comp id | _ => .circ) := by
  induction a with
  | nil =>
    cases e with
    | comp id => simp only [Answers, nameOf, Option.map_some, Option.some.injEq] at he; simp [find, he]
    | circ n => simp only [Answers, nameOf, Option.map_some, Option.some.injEq] at he; simp [find, he]
    | text s => simp [Answers, nameOf] at he
    | prim s => simp [Answers, nameOf] at he
    | bad => simp [Answers, nameOf] at he
  | cons x a ih =>
    have ih := ih (fun y hy => hf y (List.mem_cons_of_mem _ hy)) (fun h => hp (List.mem_cons_of_mem _ h))
    have hx := hf x List.mem_cons_self
    cases x with
    | bad => exact absurd List.mem_cons_self hp
    | text s => simp only [List.cons_append, find, ih, Except.map, List.length_cons]
    | prim s => simp only [List.cons_append, find, ih, Except.map, List.length_cons]
    | comp id =>
      simp only [Answers, nameOf, Option.map_some, Option.some.injEq] at hx
      simp only [List.cons_append, find, if_neg hx, ih, Except.map, List.length_cons]
    | circ n =>
      simp only [Answers, nameOf, Option.map_some, Option.some.injEq] at hx
      simp only [List.cons_append, find, if_neg hx, ih, Except.map, List.length_cons]

theorem find_free (cells : Nat → Cell) (ref : Str) (l : List Item) (hf : Free cells ref l) (hp : Parsable l) :
    find cells (upper ref) l = .error .notFound := by
  induction l with
  | nil => rfl
  | cons x a ih =>
    have ih := ih (fun y hy => hf y (List.mem_cons_of_mem _ hy)) (fun h => hp (List.mem_cons_of_mem _ h))
    have hx := hf x List.mem_cons_self
    cases x with
    | bad => exact absurd List.mem_cons_self hp
    | text s => simp only [find, ih, Except.map]
    | prim s => simp only [find, ih, Except.map]
    | comp id =>
      simp only [Answers, nameOf, Option.map_some, Option.some.injEq] at hx
      simp only [find, if_neg hx, ih, Except.map]
    | circ n =>
      simp only [Answers, nameOf, Option.map_some, Option.some.injEq] at hx
      simp only [find, if_neg hx, ih, Except.map]

theorem find_ok (cells : Nat → Cell) (up : Str) (l : List Item) (i : Nat) (h : Hit) (hf : find cells up l = .ok (i, h)) :
    ∃ a e b, l = a ++ e :: b ∧ a.length = i ∧ (nameOf cells e).map upper = some up ∧
      (∀ x ∈ a, (nameOf cells x).map upper ≠ some up) ∧ Item.bad ∉ a ∧ (∀ id, h = .comp id → e = .comp id) ∧ (h = .circ → ∃ n, e = .circ n) := by
  induction l generalizing i with
  | nil => cases hf
  | cons x l ih =>
    have skip : ∀ (hx : (nameOf cells x).map upper ≠ some up) (hb : x ≠ .bad),
        (find cells up l).map (fun p : Nat × Hit => (p.1 + 1, p.2)) = .ok (i, h) → 
        ∃ a e b, x :: l = a ++ e :: b ∧ a.length = i ∧ (nameOf cells e).map upper = some up ∧
          (∀ y ∈ a, (nameOf cells y).map upper ≠ some up) ∧ Item.bad ∉ a ∧ (∀ id, h = .comp id → e = .comp id) ∧ (h = .circ → ∃ n, e = .circ n) := by
      intro hx hb hm
      cases hfl : find cells up l with
      | error e => rw [hfl] at hm; cases hm
      | ok p =>
        rw [hfl] at hm
        simp only [Except.map, Except.ok.injEq, Prod.mk.injEq] at hm
        obtain ⟨h1, h2⟩ := hm
        have hfl' : find cells up l = .ok (p.1, h) := by rw [hfl, ← h2]
        obtain ⟨a, e, b, q1, q2, q3, q4, q5, q6, q7⟩ := ih p.1 hfl'
        refine ⟨x :: a, e, b, by rw [q1]; rfl, by simp [q2, h1], q3, ?_, ?_, q6, q7⟩
        · intro y hy
          rcases List.mem_cons.1 hy with rfl | hy
          · exact hx
          · exact q4 y hy
        · intro hy
          rcases List.mem_cons.1 hy with hy | hy
          · exact hb hy.symm
          · exact q5 hy
    cases x with
    | bad => cases hf
    | text s => exact skip (by simp [nameOf]) (by simp) hf
    | prim s => exact skip (by simp [nameOf]) (by simp) hf
    | comp id =>
      by_cases hx : upper (cells id).ref = up
      · simp only [find, if_pos hx, Except.ok.injEq, Prod.mk.injEq] at hf
        refine ⟨[], .comp id, l, rfl, hf.1, by simp [nameOf, hx], by simp, by simp, ?_, ?_⟩
        · intro id' h'; rw [← hf.2] at h'; cases h'; rfl
        · intro h'; rw [← hf.2] at h'; cases h'
      · simp only [find, if_neg hx] at hf
        exact skip (by simpa [nameOf] using hx) (by simp) hf
    | circ n =>
      by_cases hx : upper n = up
      · simp only [find, if_pos hx, Except.ok.injEq, Prod.mk.injEq] at hf
        refine ⟨[], .circ n, l, rfl, hf.1, by simp [nameOf, hx], by simp, by simp, ?_, ?_⟩
        · intro id' h'; rw [← hf.2] at h'; cases h'
        · intro _; exact ⟨n, rfl⟩
      · simp only [find, if_neg hx] at hf
        exact skip (by simpa [nameOf] using hx) (by simp) hf

theorem insertAt_split (a b : List Item) (e : Item) : insertAt a.length e (a ++ b) = a ++ e :: b := by
  simp [insertAt]

theorem eraseIdx_split (a b : List Item) (e : Item) : (a ++ e :: b).eraseIdx a.length = a ++ b := by
  rw [List.eraseIdx_append_of_length_le (by simp)]; simp

@[simp] theorem record_items (ed : Ed) (n : Str) (v : Val) (k : UpdateType) : (ed.record n v k).items = ed.items := by
  unfold Ed.record; split_ifs <;> rfl
@[simp] theorem record_cells (ed : Ed) (n : Str) (v : Val) (k : UpdateType) : (ed.record n v k).cells = ed.cells := by
  unfold Ed.record; split_ifs <;> rfl
@[simp] theorem record_perm (ed : Ed) (n : Str) (v : Val) (k : UpdateType) : (ed.record n v k).perm = ed.perm := by
  unfold Ed.record; split_ifs <;> rfl
@[simp] theorem recordOf_items (ed : Ed) (id : Nat) (n : Str) (v : Val) (k : UpdateType) : (ed.recordOf id n v k).items = ed.items := by
  unfold Ed.recordOf; split_ifs <;> simp
@[simp] theorem recordOf_cells (ed : Ed) (id : Nat) (n : Str) (v : Val) (k : UpdateType) : (ed.recordOf id n v k).cells = ed.cells := by
  unfold Ed.recordOf; split_ifs <;> simp
@[simp] theorem recordOf_perm (ed : Ed) (id : Nat) (n : Str) (v : Val) (k : UpdateType) : (ed.recordOf id n v k).perm = ed.perm := by
  unfold Ed.recordOf; split_ifs <;> simp

/-! ### C55: adding and removing components -/

/-- add_component(insert_before=ref): the new component stands immediately before the component of that reference, nothing
else moves, and the addition is recorded. -/
theorem C55_add_before (ed : Ed) (id : Nat) (ref : Str) (a b : List Item) (e : Item) (hp : ed.perm = .inform)
    (hi : ed.items = a ++ e :: b) (he : Answers ed.cells ref e) (hf : Free ed.cells ref a) (hb : Parsable a) :
    ∃ ed', addComponent ed id (.before ref) = .ok ed' ∧ ed'.items = a ++ .comp id :: e :: b ∧ ed'.cells = ed.cells ∧
      ed'.calls = ed.calls ++ [((ed.cells id).ref, (ed.cells id).value, .addComponent)] := by
  unfold addComponent addPosition Ed.get
  simp only [hp, hi, find_append ed.cells ref a b e hf hb he]
  refine ⟨_, rfl, ?_, ?_, ?_⟩
  · rw [record_items]; exact insertAt_split a (e :: b) _
  · simp
  · simp [Ed.record, hp]

/-- add_component(insert_after=ref): immediately after it. -/
theorem C55_add_after (ed : Ed) (id : Nat) (ref : Str) (a b : List Item) (e : Item) (hp : ed.perm = .inform)
    (hi : ed.items = a ++ e :: b) (he : Answers ed.cells ref e) (hf : Free ed.cells ref a) (hb : Parsable a) :
    ∃ ed', addComponent ed id (.after ref) = .ok ed' ∧ ed'.items = a ++ e :: .comp id :: b ∧ ed'.cells = ed.cells ∧
      ed'.calls = ed.calls ++ [((ed.cells id).ref, (ed.cells id).value, .addComponent)] := by
  unfold addComponent addPosition Ed.get
  simp only [hp, hi, find_append ed.cells ref a b e hf hb he]
  refine ⟨_, rfl, ?_, ?_, ?_⟩
  · rw [record_items]
    have := insertAt_split (a ++ [e]) b (.comp id)
    simpa using this
  · simp
  · simp [Ed.record, hp]

/-- add_component without a position, in a netlist as it is loaded (no string element is a directive): two lines from the
end. -/
theorem C55_add_default (ed : Ed) (id : Nat) (a b : List Item) (hp : ed.perm = .inform) (hi : ed.items = a ++ b) (hb : b.length = 2)
    (hs : Item.text ".backanno\n".toList ∉ ed.items) :
    ∃ ed', addComponent ed id .default = .ok ed' ∧ ed'.items = a ++ .comp id :: b ∧ ed'.cells = ed.cells ∧
      ed'.calls = ed.calls ++ [((ed.cells id).ref, (ed.cells id).value, .addComponent)] := by
  unfold addComponent addPosition
  have h0 : ed.items.idxOf? (.text ".backanno\n".toList) = none := by
    rw [List.idxOf?_eq_none_iff]; exact hs
  rw [hp, h0, hi]
  refine ⟨_, rfl, ?_, ?_, ?_⟩
  · rw [record_items]
    have : (a ++ b).length - 2 = a.length := by rw [List.length_append, hb]; omega
    simp only [Option.getD_none, this]
    exact insertAt_split a b _
  · simp
  · simp [Ed.record, hp]

/-- Wherever it is put, add_component keeps all other elements in their order. -/
theorem C55_add_keeps_others (ed ed' : Ed) (id : Nat) (w : Where) (h : addComponent ed id w = .ok ed') :
    ∃ a b, ed.items = a ++ b ∧ ed'.items = a ++ .comp id :: b ∧ ed'.cells = ed.cells ∧ ed'.perm = ed.perm := by
  unfold addComponent at h
  split_ifs at h
  cases hw : addPosition ed w with
  | error e => rw [hw] at h; cases h
  | ok i =>
    rw [hw] at h
    cases h
    exact ⟨ed.items.take i, ed.items.drop i, (List.take_append_drop i _).symm, by simp [insertAt], by simp, by simp⟩

/-- remove_component takes out the first element of that reference and nothing else, and records it. -/
theorem C55_remove (ed : Ed) (ref : Str) (a b : List Item) (e : Item) (hp : ed.perm = .inform) (hi : ed.items = a ++ e :: b)
    (he : Answers ed.cells ref e) (hf : Free ed.cells ref a) (hb : Parsable a) :
    ∃ ed', removeComponent ed ref = .ok ed' ∧ ed'.items = a ++ b ∧ ed'.cells = ed.cells ∧
      ed'.calls = ed.calls ++ [(ref, some "delete".toList, .deleteComponent)] := by
  unfold removeComponent Ed.get
  rw [hp, hi, find_append ed.cells ref a b e hf hb he]
  refine ⟨_, rfl, ?_, ?_, ?_⟩
  · rw [record_items]; exact eraseIdx_split a b e
  · simp
  · simp [Ed.record, hp]

/-- Removing a reference that is not there raises (and so changes nothing). -/
theorem C55_remove_missing (ed : Ed) (ref : Str) (hp : ed.perm ≠ .deny) (hf : Free ed.cells ref ed.items) (hb : Parsable ed.items) :
    removeComponent ed ref = .error .notFound := by
  unfold removeComponent Ed.get
  rw [if_neg hp, find_free _ _ _ hf hb]

/-- A new component can be addressed by its reference right away, and removing it restores the netlist. -/
theorem C55_add_then_remove (ed ed' : Ed) (id : Nat) (w : Where) (hp : ed.perm ≠ .deny) (hf : Free ed.cells (ed.cells id).ref ed.items)
    (hb : Parsable ed.items) (h : addComponent ed id w = .ok ed') :
    getComponentValue ed' (ed.cells id).ref = .ok (ed.cells id).value ∧
    ∃ ed'', removeComponent ed' (ed.cells id).ref = .ok ed'' ∧ ed''.items = ed.items ∧ ed''.cells = ed.cells := by
  obtain ⟨a, b, h1, h2, h3, h4⟩ := C55_add_keeps_others ed ed' id w h
  have hfa : Free ed'.cells (ed.cells id).ref a := by
    rw [h3]; intro x hx; exact hf x (by rw [h1]; exact List.mem_append_left _ hx)
  have hpa : Parsable a := fun hx => hb (by rw [h1]; exact List.mem_append_left _ hx)
  have hans : Answers ed'.cells (ed.cells id).ref (.comp id) := by simp [Answers, nameOf, h3]
  have hfind := find_append ed'.cells (ed.cells id).ref a b (.comp id) hfa hpa hans
  constructor
  · unfold getComponentValue Ed.get
    rw [h2, hfind]
    simp [h3]
  · unfold removeComponent Ed.get
    rw [if_neg (by rw [h4]; exact hp), h2, hfind]
    refine ⟨_, rfl, ?_, ?_⟩
    · rw [record_items, h1]; exact eraseIdx_split a b _
    · simp [h3]

/-- Not as documented: adding a component whose reference exists does not replace the old one. The old one (if it comes
first) stays the one that is read, set and removed. -/
theorem C55_existing_not_replaced (ed : Ed) (id old : Nat) (a b : List Item) (hp : ed.perm = .inform)
    (hi : ed.items = a ++ .comp old :: b) (hsame : upper (ed.cells old).ref = upper (ed.cells id).ref)
    (hf : Free ed.cells (ed.cells old).ref a) (hb : Parsable a) :
    ∃ ed', addComponent ed id (.after (ed.cells old).ref) = .ok ed' ∧ ed'.items = a ++ .comp old :: .comp id :: b ∧
      getComponentValue ed' (ed.cells id).ref = .ok (ed.cells old).value := by
  obtain ⟨ed', h1, h2, h3, _⟩ := C55_add_after ed id (ed.cells old).ref a b (.comp old) hp hi (by simp [Answers, nameOf]) hf hb
  refine ⟨ed', h1, h2, ?_⟩
  have hans : Answers ed'.cells (ed.cells id).ref (.comp old) := by simp [Answers, nameOf, h3, hsame]
  have hfa : Free ed'.cells (ed.cells id).ref a := by
    intro x hx hA
    apply hf x hx
    unfold Answers at hA ⊢
    rw [h3] at hA
    rw [hA, hsame]
  unfold getComponentValue Ed.get
  rw [h2, find_append ed'.cells _ a _ (.comp old) hfa hb hans]
  simp [h3]

/-! ### C56: parameters of a component -/

theorem lookup_putP (d : List (Str × Val)) (k k' : Str) (v : Val) :
    (putP d k v).lookup k' = if k' = k then some v else d.lookup k' := by
  induction d with
  | nil =>
    by_cases h : k' = k
    · simp [putP, List.lookup_cons, h]
    · have h2 : (k' == k) = false := by simpa using h
      simp [putP, List.lookup_cons, h, h2]
  | cons x d ih =>
    obtain ⟨q, w⟩ := x
    by_cases hq : q = k
    · subst hq
      by_cases h : k' = q
      · simp [putP, List.lookup_cons, h]
      · have h2 : (k' == q) = false := by simpa using h
        simp [putP, List.lookup_cons, h, h2]
    · simp only [putP, if_neg hq, List.lookup_cons, ih]
      by_cases h1 : k' = q
      · subst h1; simp [hq]
      · have : (k' == q) = false := by simpa using h1
        simp [this]

theorem lookup_setParam (d : List (Str × Val)) (k k' : Str) (v : Val) :
    (setParam d k v).lookup k' = if k' = k then (match v with | none => none | some x => some (some x)) else d.lookup k' := by
  cases v with
  | some x => simp only [setParam]; exact lookup_putP d k k' _
  | none =>
    simp only [setParam]
    induction d with
    | nil => simp
    | cons x d ih =>
      obtain ⟨q, w⟩ := x
      by_cases hq : q = k
      · subst hq
        rw [List.filter_cons_of_neg (by simp), ih, List.lookup_cons]
        by_cases h : k' = q
        · simp [h]
        · have : (k' == q) = false := by simpa using h
          simp [h, this]
      · rw [List.filter_cons_of_pos (by simpa using hq), List.lookup_cons, List.lookup_cons, ih]
        by_cases h1 : k' = q
        · subst h1; simp [hq]
        · have : (k' == q) = false := by simpa using h1
          simp [this]

/-- What is known of an editor after parameters of the component `id` were set. -/
structure After (ed ed' : Ed) (id : Nat) (kvs : List (Str × Val)) : Prop where
  items : ed'.items = ed.items
  perm : ed'.perm = ed.perm
  others : ∀ j, j ≠ id → ed'.cells j = ed.cells j
  same : (ed'.cells id).ref = (ed.cells id).ref ∧ (ed'.cells id).value = (ed.cells id).value ∧ (ed'.cells id).attached = (ed.cells id).attached
  params : (ed'.cells id).params = kvs.foldl (fun d kv => setParam d kv.1 kv.2) (ed.cells id).params

theorem setParametersOf_after (id : Nat) (kvs : List (Str × Val)) : ∀ (ed : Ed), ed.permOf id ≠ .deny →
    ∃ ed', setParametersOf ed id kvs = .ok ed' ∧ After ed ed' id kvs := by
  induction kvs with
  | nil => intro ed _; exact ⟨ed, rfl, ⟨rfl, rfl, fun _ _ => rfl, ⟨rfl, rfl, rfl⟩, rfl⟩⟩
  | cons kv kvs ih =>
    intro ed hp
    obtain ⟨k, v⟩ := kv
    unfold setParametersOf setParameterOf
    rw [if_neg hp]
    simp only
    generalize hed1 : (if ed.permOf id = .inform then
        (ed.setCell id { ed.cells id with params := setParam (ed.cells id).params k v }).recordOf id ((ed.cells id).ref ++ ':' :: k) v
          (paramChange (ed.cells id).params k v)
      else ed.setCell id { ed.cells id with params := setParam (ed.cells id).params k v }) = ed1
    have h1 : ed1.items = ed.items := by rw [← hed1]; split_ifs <;> simp [Ed.setCell]
    have h2 : ed1.perm = ed.perm := by rw [← hed1]; split_ifs <;> simp [Ed.setCell]
    have h3 : ed1.cells = fun i => if i = id then { ed.cells id with params := setParam (ed.cells id).params k v } else ed.cells i := by
      rw [← hed1]; split_ifs <;> simp [Ed.setCell]
    have hp1 : ed1.permOf id ≠ .deny := by
      unfold Ed.permOf at hp ⊢
      rw [h2, h3]
      simpa using hp
    obtain ⟨ed', g1, g2⟩ := ih ed1 hp1
    refine ⟨ed', g1, ?_⟩
    constructor
    · rw [g2.items, h1]
    · rw [g2.perm, h2]
    · intro j hj; rw [g2.others j hj, h3]; simp [hj]
    · refine ⟨g2.same.1.trans (by rw [h3]; simp), g2.same.2.1.trans (by rw [h3]; simp), g2.same.2.2.trans (by rw [h3]; simp)⟩
    · rw [g2.params, h3]; simp

/-- The value of a parameter after a series of assignments: that of the last assignment to it, else the old one. Setting None
deletes. -/
def lastParam (old : Option Val) (k : Str) : List (Str × Val) → Option Val
  | [] => old
  | (k', v) :: kvs => lastParam (if k' = k then v.map some else old) k kvs

theorem lookup_foldl (k : Str) (kvs : List (Str × Val)) : ∀ d : List (Str × Val),
    (kvs.foldl (fun d kv => setParam d kv.1 kv.2) d).lookup k = lastParam (d.lookup k) k kvs := by
  induction kvs with
  | nil => intro d; rfl
  | cons kv kvs ih =>
    intro d
    obtain ⟨k', v⟩ := kv
    rw [List.foldl_cons, ih, lookup_setParam]
    simp only [lastParam]
    congr 1
    by_cases h : k' = k
    · subst h; cases v <;> simp
    · have h' : ¬ k = k' := fun e => h e.symm
      simp [h, h']

/-- set_component_parameters: every parameter given has the value given afterwards (None: it is gone), every other parameter,
the value and every other component are as before, and no line was added or removed. -/
theorem C56_set_parameters (ed : Ed) (ref : Str) (kvs : List (Str × Val)) (a b : List Item) (id : Nat) (hp : ed.perm ≠ .deny)
    (hi : ed.items = a ++ .comp id :: b) (he : Answers ed.cells ref (.comp id)) (hf : Free ed.cells ref a) (hb : Parsable a) :
    ∃ ed', setComponentParameters ed ref kvs = .ok ed' ∧ ed'.items = ed.items ∧ (∀ j, j ≠ id → ed'.cells j = ed.cells j) ∧
      (ed'.cells id).value = (ed.cells id).value ∧ (ed'.cells id).ref = (ed.cells id).ref ∧
      ∃ ps, getComponentParameters ed' ref = .ok ps ∧ ∀ k, ps.lookup k = lastParam ((ed.cells id).params.lookup k) k kvs := by
  have hfind := find_append ed.cells ref a b (.comp id) hf hb he
  have hpid : ed.permOf id ≠ .deny := by
    unfold Ed.permOf; split_ifs
    · exact hp
    · simp
  obtain ⟨ed', g1, g2⟩ := setParametersOf_after id kvs ed hpid
  refine ⟨ed', ?_, g2.items, g2.others, g2.same.2.1, g2.same.1, ?_⟩
  · unfold setComponentParameters Ed.get
    rw [if_neg hp, hi, hfind]
    exact g1
  · refine ⟨(ed'.cells id).params, ?_, fun k => by rw [g2.params]; exact lookup_foldl k kvs _⟩
    have href : ∀ x, nameOf ed'.cells x = nameOf ed.cells x := by
      intro x
      cases x with
      | comp j =>
        simp only [nameOf]
        by_cases hj : j = id
        · rw [hj, g2.same.1]
        · rw [g2.others j hj]
      | _ => rfl
    have hf' : Free ed'.cells ref a := by
      intro x hx hA; apply hf x hx; unfold Answers at hA ⊢; rw [← href]; exact hA
    have he' : Answers ed'.cells ref (.comp id) := by unfold Answers at he ⊢; rw [href]; exact he
    unfold getComponentParameters Ed.get
    rw [g2.items, hi, find_append ed'.cells ref a b (.comp id) hf' hb he']

/-- In particular parameters that are not mentioned keep their value. -/
theorem C56_unmentioned (old : Option Val) (k : Str) (kvs : List (Str × Val)) (h : k ∉ kvs.map Prod.fst) : lastParam old k kvs = old := by
  induction kvs generalizing old with
  | nil => rfl
  | cons kv kvs ih =>
    obtain ⟨k', v⟩ := kv
    simp only [List.map_cons, List.mem_cons, not_or] at h
    simp only [lastParam, if_neg (Ne.symm h.1)]
    exact ih _ h.2

/-- A single assignment is recorded under "reference:parameter" with the right kind: delete, update or add. -/
theorem C56_recorded (ed : Ed) (id : Nat) (k : Str) (v : Val) (hp : ed.perm = .inform) (ha : (ed.cells id).attached = true) :
    ∃ ed' kind, setParameterOf ed id k v = .ok ed' ∧ ed'.calls = ed.calls ++ [((ed.cells id).ref ++ ':' :: k, v, kind)] ∧
      (v = none → kind = .deleteComponentParameter) ∧
      (v ≠ none → ((ed.cells id).params.lookup k).isSome = true → kind = .updateComponentParameter) ∧
      (v ≠ none → (ed.cells id).params.lookup k = none → kind = .addComponentParameter) := by
  unfold setParameterOf
  rw [if_neg (by simp [Ed.permOf, ha, hp])]
  simp only
  rw [if_pos (by simp [Ed.permOf, ha, hp])]
  refine ⟨_, paramChange (ed.cells id).params k v, rfl, ?_, ?_, ?_, ?_⟩
  · simp [Ed.recordOf, Ed.setCell, ha, Ed.record, hp]
  · intro h; subst h; rfl
  · intro h hs
    cases v with
    | none => exact absurd rfl h
    | some x =>
      simp only [paramChange]
      rw [if_pos]
      by_contra hk
      have : (ed.cells id).params.lookup k = none := by
        rw [List.lookup_eq_none_iff]; intro p hp'; simp only [beq_eq_false_iff_ne, bne_iff_ne, ne_eq]
        intro hc; exact hk (hc ▸ List.mem_map_of_mem hp')
      rw [this] at hs; cases hs
  · intro h hs
    cases v with
    | none => exact absurd rfl h
    | some x =>
      simp only [paramChange]
      rw [if_neg]
      intro hk
      obtain ⟨p, hp', hpk⟩ := List.mem_map.1 hk
      rw [List.lookup_eq_none_iff] at hs
      have := hs p hp'
      simp [hpk] at this

/-- Not as documented: clear_parameters does not make the parameters disappear from the file; each is written as
"name=None". -/
theorem C56_cleared_written_as_None (ed : Ed) (id : Nat) :
    (((clearParameters ed id).cells id).params.map showParam) = (ed.cells id).params.map (fun kv => kv.1 ++ "=None".toList) := by
  simp [clearParameters, Ed.setCell, showParam, Function.comp_def]

/-! ### C35: read-only editors -/

/-- With permission Deny each of these calls raises, so that nothing is changed. -/
theorem C35_component_calls_denied (ed : Ed) (hp : ed.perm = .deny) (ref : Str) (v : Val) (kvs : List (Str × Val)) (id : Nat) (w : Where) :
    setElementModel ed ref v = .error .value ∧ setComponentParameters ed ref kvs = .error .value ∧
    addComponent ed id w = .error .value ∧ removeComponent ed ref = .error .value := by
  simp [setElementModel, setComponentParameters, addComponent, removeComponent, hp]

/-- set_component_value raises too, and so do the setters of a component object, for components that belong to the editor. -/
theorem C35_set_value_denied (ed : Ed) (hp : ed.perm = .deny) (ha : ∀ id, Item.comp id ∈ ed.items → (ed.cells id).attached = true)
    (ref : Str) (v : Val) : ∃ e, setComponentValue ed ref v = .error e := by
  unfold setComponentValue
  cases h : ed.get ref with
  | error e => exact ⟨e, rfl⟩
  | ok p =>
    obtain ⟨i, hit⟩ := p
    cases hit with
    | circ => exact ⟨_, rfl⟩
    | comp id =>
      obtain ⟨a, e, b, h1, _, _, _, _, h6, _⟩ := find_ok _ _ _ _ _ h
      have he := h6 id rfl
      have hat := ha id (by rw [h1, he]; simp)
      exact ⟨.permission, by simp [setValueOf, Ed.permOf, hat, hp]⟩

theorem C35_object_setters_denied (ed : Ed) (hp : ed.perm = .deny) (id : Nat) (ha : (ed.cells id).attached = true) (k : Str) (v : Val)
    (hk : k ∉ valueIds) : setValueOf ed id v = .error .permission ∧ setParameterOf ed id k v = .error .permission ∧
    setItem ed id k v = .error .permission := by
  simp [setValueOf, setParameterOf, setItem, Ed.permOf, ha, hp, hk]

/-- The instructions of the netlist: add, remove and remove by pattern raise. -/
theorem C35_instructions_denied (ed : Model.Netlist.Ed) (hp : ed.perm = .deny) (s : Str) (p : Str → Bool) :
    Model.Netlist.addInstruction ed s = .error .permission ∧ Model.Netlist.removeInstruction ed s = .error .permission ∧
    Model.Netlist.removeX ed p = .error .permission := by
  simp [Model.Netlist.addInstruction, Model.Netlist.removeInstruction, Model.Netlist.removeX, hp]

/-- The instructions of a sub-circuit: removing returns False and changes nothing. -/
theorem C35_sub_removals_denied (s : Sub) (hp : s.perm = .deny) (i : Str) (p : Str → Bool) :
    subRemoveInstruction s i = .ok (s, false) ∧ subRemoveX s p = (s, false) := by
  simp [subRemoveInstruction, subRemoveX, hp]

/-- An editor with one resistor. -/
def demo (perm : Perm) : Ed :=
  ⟨perm, [.text "* t\n".toList, .comp 0, .prim ".backanno\n".toList, .prim ".end\n".toList],
    fun i => if i = 0 then ⟨"R1".toList, some "1k".toList, [("tc".toList, some "0".toList)], true⟩ else ⟨"R2".toList, some "5".toList, [], false⟩, []⟩

/-- Not kept by the code: `component['value'] = v`, clear_parameters() and the reference setter change a component of a
read-only editor. -/
theorem C35_bypasses (v : Val) (r : Str) :
    (∃ ed', setItem (demo .deny) 0 "value".toList v = .ok ed' ∧ getComponentValue ed' "R1".toList = .ok v) ∧
    getComponentParameters (clearParameters (demo .deny) 0) "R1".toList = .ok [("tc".toList, none)] ∧
    ((setReference (demo .deny) 0 r).cells 0).ref = r := by
  exact ⟨⟨_, rfl, rfl⟩, rfl, rfl⟩

/-- Not kept by the code: add_instruction on a sub-circuit ignores the permission, does not record the change, and does not
mark the sub-circuit as modified (so that a copy made for an instance is not written when the netlist is saved). -/
theorem C35_sub_add_instruction_bypasses (items : List Model.Netlist.Elem) (calls : List (Str × Str × UpdateType))
    (h : Model.Netlist.findText ".model d d".toList items = .ok none) :
    ∃ s', subAddInstruction ⟨.deny, items, false, calls⟩ ".model d d".toList = .ok s' ∧ s'.items.length = items.length + 1 ∧
      s'.modified = false ∧ s'.calls = calls := by
  have h1 : Model.Netlist.lineCommand ".model d d".toList = some ".MODEL".toList := by decide
  have h2 : Model.Netlist.isUnique ".MODEL".toList = some false := by decide
  unfold subAddInstruction
  rw [h1]
  simp only
  rw [h2]
  simp only
  rw [if_neg (by decide), h]
  refine ⟨_, rfl, ?_, rfl, rfl⟩
  simp [Model.Netlist.insertAt]
  omega

/-- Not kept by the code: a component object made without a netlist and added to an editor stays detached: setting its value
is not recorded, and is possible when the editor is read-only. -/
theorem C35_detached_component (perm : Perm) (hp : perm ≠ .deny) (v : Val) :
    ∃ ed' ed'', addComponent (demo perm) 7 .default = .ok ed' ∧ setComponentValue { ed' with perm := .deny } "R2".toList v = .ok ed'' ∧
      getComponentValue ed'' "R2".toList = .ok v ∧ ed''.calls = ed'.calls := by
  cases perm with
  | deny => exact absurd rfl hp
  | inform => exact ⟨_, _, rfl, rfl, rfl, rfl⟩
  | initializing => exact ⟨_, _, rfl, rfl, rfl, rfl⟩

/-! ### Concrete cases -/

example : ∃ ed', addComponent (demo .inform) 7 (.after "r1".toList) = .ok ed' ∧
    ed'.items = [.text "* t\n".toList, .comp 0, .comp 7, .prim ".backanno\n".toList, .prim ".end\n".toList] :=
  ⟨_, rfl, by decide⟩
example : Free (demo .inform).cells "R2".toList (demo .inform).items := by
  intro e he
  simp only [demo, List.mem_cons, List.not_mem_nil, or_false] at he
  rcases he with rfl | rfl | rfl | rfl <;> simp [Answers, nameOf, demo] <;> decide
example : ∃ ed', setComponentParameters (demo .inform) "R1".toList [("tc".toList, none), ("pwr".toList, some "1".toList)] = .ok ed' ∧
    getComponentParameters ed' "r1".toList = .ok [("pwr".toList, some "1".toList)] := ⟨_, rfl, rfl⟩
example : ∃ ed' ed'', addComponent (demo .inform) 7 .default = .ok ed' ∧ removeComponent ed' "R2".toList = .ok ed'' ∧
    ed''.items = (demo .inform).items := ⟨_, _, rfl, rfl, by decide⟩

end Props.CompOps
