import Verif.Model.IncParam
import Verif.Props.SpiceParam

/-! C62 for netlists that include other files: every parameter function acts as on the one netlist that is written, in which the
included netlists stand in the place of their include lines. -/
namespace Props.IncParam
open Model.PyStr Model.Netlist Model.SpiceParam Model.IncParam Props.SpiceParam
open Model.ParamRegex (Match findIter named sorted)
open Spec.ParamLine hiding Str

/-- position shifted by `n` -/
def shift (n : Nat) (r : Except Err (Option (Nat × Match))) : Except Err (Option (Nat × Match)) :=
  match r with
  | .error x => .error x
  | .ok r => .ok (r.map (fun q => (q.1 + n, q.2)))

theorem shift_succ (n : Nat) (r : Except Err (Option (Nat × Match))) :
    (match shift n r with | .error x => .error x | .ok r => .ok (r.map (fun q => (q.1 + 1, q.2)))) = shift (n + 1) r := by
  rcases r with x | _ | ⟨i, m⟩ <;> simp [shift, Nat.add_assoc]

/-- Going on after elements in which the parameter is not. -/
theorem findParam_append (p : Str) (b : List Elem) : ∀ a : List Elem,
    (∀ x, findParam p a = .error x → findParam p (a ++ b) = .error x) ∧
    (∀ r, findParam p a = .ok (some r) → findParam p (a ++ b) = .ok (some r)) ∧
    (findParam p a = .ok none → findParam p (a ++ b) = shift a.length (findParam p b)) := by
  intro a
  induction a with
  | nil =>
    refine ⟨fun x h => by simp [findParam] at h, fun r h => by simp [findParam] at h, fun _ => ?_⟩
    rcases hb : findParam p b with x | _ | ⟨i, m⟩ <;> simp [shift, hb]
  | cons e a ih =>
    obtain ⟨i1, i2, i3⟩ := ih
    have go : ∀ (rest : Except Err (Option (Nat × Match))), rest = (match findParam p a with | .error x => .error x | .ok r => .ok (r.map (fun q => (q.1 + 1, q.2)))) →
        ∀ (rest' : Except Err (Option (Nat × Match))), rest' = (match findParam p (a ++ b) with | .error x => .error x | .ok r => .ok (r.map (fun q => (q.1 + 1, q.2)))) →
        (∀ x, rest = .error x → rest' = .error x) ∧ (∀ r, rest = .ok (some r) → rest' = .ok (some r)) ∧
        (rest = .ok none → rest' = shift (a.length + 1) (findParam p b)) := by
      intro rest hr rest' hr'
      rcases hfa : findParam p a with x | _ | r
      · rw [hfa] at hr; rw [i1 x hfa] at hr'; subst hr; subst hr'
        exact ⟨fun _ h => h, fun _ h => h, fun h => by simp at h⟩
      · rw [hfa] at hr; rw [i3 hfa] at hr'; subst hr
        rw [shift_succ] at hr'
        exact ⟨fun _ h => by simp at h, fun _ h => by simp at h, fun _ => hr'⟩
      · rw [hfa] at hr; rw [i2 r hfa] at hr'; subst hr; subst hr'
        exact ⟨fun _ h => h, fun _ h => h, fun h => by simp at h⟩
    have hgo := go _ rfl _ rfl
    simp only [List.cons_append, findParam, List.length_cons]
    cases hl : look e with
    | skip => exact hgo
    | fail => exact ⟨fun _ h => h, fun _ h => by simp at h, fun h => by simp at h⟩
    | line s =>
      simp only
      cases hc : lineCommand s with
      | none => exact ⟨fun _ h => h, fun _ h => by simp at h, fun h => by simp at h⟩
      | some cmd =>
        simp only
        by_cases hp : cmd = ".PARAM".toList
        · rw [if_pos hp, if_pos hp]
          cases hn : named p (findIter s) with
          | none => exact hgo
          | some m => exact ⟨fun _ h => h, fun _ h => h, fun h => by simp at h⟩
        · rw [if_neg hp, if_neg hp]; exact hgo

theorem flat_append (a b : List Tree) : flat (a ++ b) = flat a ++ flat b := by
  induction a with
  | nil => rfl
  | cons t a ih => simp only [List.cons_append, flat, ih, List.append_assoc]

theorem modifyT_head (f : Elem → Elem) (path : List Nat) (t : Tree) (l : List Tree) :
    modifyT f (0 :: path) (t :: l) = modifyT f (0 :: path) [t] ++ l := by
  simp [modifyT, modL]

theorem modify_right (f : Elem → Elem) (b : List Elem) (n : Nat) : ∀ a : List Elem, (a ++ b).modify (n + a.length) f = a ++ b.modify n f := by
  intro a
  induction a with
  | nil => simp
  | cons x a ih => rw [List.cons_append, List.length_cons, ← Nat.add_assoc, List.modify_succ_cons, ih]; rfl

theorem modify_left (f : Elem → Elem) (b : List Elem) : ∀ (a : List Elem) (n : Nat), n < a.length → (a ++ b).modify n f = a.modify n f ++ b := by
  intro a
  induction a with
  | nil => intro n h; simp at h
  | cons x a ih =>
    intro n h
    cases n with
    | zero => rfl
    | succ n => rw [List.cons_append, List.modify_succ_cons, List.modify_succ_cons, ih n (by simpa using h)]; rfl

/-- What is found in the tree and what is found in the netlist as it is written. -/
def Corr (r : Except Err Found) (g : Except Err (Option (Nat × Match))) (ts : List Tree) (top : Nat → Prop) : Prop :=
  (∀ x, r = .error x → g = .error x) ∧ (r = .ok none → g = .ok none) ∧
  (∀ path m, r = .ok (some (path, m)) → ∃ i path' n, path = i :: path' ∧ top i ∧ g = .ok (some (n, m)) ∧ n < (flat ts).length ∧
    ∀ f, flat (modifyT f path ts) = (flat ts).modify n f)

mutual
theorem find1_corr (p : Str) : ∀ t : Tree, Corr (find1 p t) (findParam p (flat1 t)) [t] (· = 0)
  | .own e => by
    have hf : findParam p (flat1 (.own e)) = findParam p [e] := rfl
    rw [hf]
    simp only [findParam, find1]
    cases hl : look e with
    | skip => exact ⟨fun _ h => by simp at h, fun _ => rfl, fun _ _ h => by simp at h⟩
    | fail => exact ⟨fun _ h => by simpa using h, fun h => by simp at h, fun _ _ h => by simp at h⟩
    | line s =>
      simp only
      cases hc : lineCommand s with
      | none => exact ⟨fun _ h => by simpa using h, fun h => by simp at h, fun _ _ h => by simp at h⟩
      | some cmd =>
        simp only
        by_cases hp : cmd = ".PARAM".toList
        · rw [if_pos hp, if_pos hp]
          cases hn : named p (findIter s) with
          | none => exact ⟨fun _ h => by simp at h, fun _ => rfl, fun _ _ h => by simp at h⟩
          | some m =>
            refine ⟨fun _ h => by simp at h, fun h => by simp at h, fun path m' h => ?_⟩
            simp only [Option.map_some, Except.ok.injEq, Option.some.injEq, Prod.mk.injEq] at h
            obtain ⟨rfl, rfl⟩ := h
            exact ⟨0, [], 0, rfl, rfl, rfl, by simp [flat, flat1], fun f => by simp [modifyT, modL, mod1, flat, flat1]⟩
        · rw [if_neg hp, if_neg hp]
          exact ⟨fun _ h => by simp at h, fun _ => rfl, fun _ _ h => by simp at h⟩
  | .file l => by
    obtain ⟨h1, h2, h3⟩ := findT_corr p l
    have hfl : flat [Tree.file l] = flat l := by simp [flat, flat1]
    simp only [find1, flat1]
    refine ⟨fun x h => ?_, fun h => ?_, fun path m h => ?_⟩
    · rcases hr : findT p l with y | r
      · rw [hr] at h; exact h1 x (by rw [hr]; simpa [Except.map] using h)
      · rw [hr] at h; simp [Except.map] at h
    · rcases hr : findT p l with y | _ | r
      · rw [hr] at h; simp [Except.map] at h
      · exact h2 hr
      · rw [hr] at h; simp [Except.map] at h
    · rcases hr : findT p l with y | _ | ⟨path', m'⟩
      · rw [hr] at h; simp [Except.map] at h
      · rw [hr] at h; simp [Except.map] at h
      · rw [hr] at h
        simp only [Except.map, Option.map_some, inside, Except.ok.injEq, Option.some.injEq, Prod.mk.injEq] at h
        obtain ⟨rfl, rfl⟩ := h
        obtain ⟨i, q, n, e1, _, e3, e4, e5⟩ := h3 path' m' hr
        refine ⟨0, path', n, rfl, rfl, e3, by rw [hfl]; exact e4, fun f => ?_⟩
        rw [hfl, ← e5 f]
        simp [modifyT, modL, mod1, flat, flat1]
theorem findT_corr (p : Str) : ∀ ts : List Tree, Corr (findT p ts) (findParam p (flat ts)) ts (fun _ => True)
  | [] => ⟨fun _ h => by simp [findT] at h, fun _ => rfl, fun _ _ h => by simp [findT] at h⟩
  | t :: l => by
    obtain ⟨a1, a2, a3⟩ := find1_corr p t
    obtain ⟨b1, b2, b3⟩ := findT_corr p l
    obtain ⟨c1, c2, c3⟩ := findParam_append p (flat l) (flat1 t)
    have h1 : flat [t] = flat1 t := by simp [flat]
    simp only [flat, findT]
    rcases hr : find1 p t with x | _ | ⟨path, m⟩
    · refine ⟨fun y h => ?_, fun h => by simp at h, fun _ _ h => by simp at h⟩
      simp only [Except.error.injEq] at h; subst h
      exact c1 x (a1 x hr)
    · have hg := c3 (a2 hr)
      simp only
      rcases hr2 : findT p l with x | _ | ⟨path, m⟩
      · refine ⟨fun y h => ?_, fun h => by simp [later] at h, fun _ _ h => by simp [later] at h⟩
        simp only [later, Except.error.injEq] at h; subst h
        rw [hg, b1 x hr2]; rfl
      · refine ⟨fun y h => by simp [later] at h, fun _ => ?_, fun _ _ h => by simp [later] at h⟩
        rw [hg, b2 hr2]; rfl
      · obtain ⟨i, path', n, e1, _, e3, e4, e5⟩ := b3 path m hr2
        subst e1
        refine ⟨fun y h => by simp [later] at h, fun h => by simp [later] at h, fun pa m' h => ?_⟩
        simp only [later, Except.ok.injEq, Option.some.injEq, Prod.mk.injEq] at h
        obtain ⟨rfl, rfl⟩ := h
        refine ⟨i + 1, path', n + (flat1 t).length, rfl, trivial, by rw [hg, e3]; rfl, ?_, fun f => ?_⟩
        · simp only [flat, List.length_append]; omega
        · have e5f := e5 f
          simp only [modifyT] at e5f
          simp only [modifyT, modL, flat, e5f]
          rw [modify_right]
    · obtain ⟨i, path', n, e1, e2, e3, e4, e5⟩ := a3 path m hr
      have e2 : i = 0 := e2
      subst e2; subst e1
      refine ⟨fun y h => by simp at h, fun h => by simp at h, fun pa m' h => ?_⟩
      simp only [Except.ok.injEq, Option.some.injEq, Prod.mk.injEq] at h
      obtain ⟨rfl, rfl⟩ := h
      rw [h1] at e4 e5
      refine ⟨0, path', n, rfl, trivial, c2 _ e3, ?_, fun f => ?_⟩
      · simp only [flat, List.length_append]; omega
      · rw [modifyT_head, flat_append, e5 f]
        simp only [flat]
        rw [modify_left _ _ _ _ e4]
end

/-- The editor of the netlist as it is written. -/
def written (ed : TEd) : Ed := ⟨ed.perm, flat ed.netlist, ed.calls⟩

/-- get_parameter reads through includes: as if the files stood in the netlist. -/
theorem C62_include_get (ed : TEd) (p : Str) : getT ed.netlist p = getParam (written ed) p := by
  obtain ⟨h1, h2, h3⟩ := findT_corr p ed.netlist
  unfold getT getParam written
  rcases hr : findT p ed.netlist with x | _ | ⟨path, m⟩
  · simp only [h1 x hr]; rfl
  · simp only [h2 hr]; rfl
  · obtain ⟨_, _, n, _, _, e, _⟩ := h3 path m hr
    simp only [e]; rfl

theorem written_record (ed : TEd) (p v : Str) (k : Model.Updates.UpdateType) : written (recordT ed p v k) = record (written ed) p v k := by
  unfold recordT record written
  by_cases h : ed.perm = .inform <;> simp [h]

/-- set_parameter and its removal, of a parameter defined in the netlist or in an included file: the netlist written afterwards is the
one the same call makes of the netlist written before. -/
theorem C62_include_change (ed : TEd) (p v : Str) (h : getParam (written ed) p ≠ .ok none) :
    (setT ed p v).map written = setParam (written ed) p v ∧ (delT ed p).map written = delParam (written ed) p := by
  obtain ⟨h1, h2, h3⟩ := findT_corr p ed.netlist
  unfold setT setParam delT delParam
  by_cases hp : ed.perm = .deny
  · rw [if_pos hp, if_pos hp, if_pos (show (written ed).perm = .deny from hp), if_pos (show (written ed).perm = .deny from hp)]
    exact ⟨rfl, rfl⟩
  · rw [if_neg hp, if_neg hp, if_neg (show ¬ (written ed).perm = .deny from hp), if_neg (show ¬ (written ed).perm = .deny from hp)]
    have hw : (written ed).netlist = flat ed.netlist := rfl
    rw [hw]
    rcases hr : findT p ed.netlist with x | _ | ⟨path, m⟩
    · rw [h1 x hr]; exact ⟨rfl, rfl⟩
    · exact absurd (by unfold getParam; rw [hw, h2 hr]; rfl) h
    · obtain ⟨_, _, n, _, _, e, _, em⟩ := h3 path m hr
      rw [e]
      constructor
      · simp only [Except.map, written_record]
        congr 2
        simp only [written, em]
      · simp only [Except.map, written_record]
        congr 2
        simp only [written, em]

/-- A parameter that is defined nowhere gets its line in the outer netlist, two elements before its end; included files stay. -/
theorem C62_include_new (ed : TEd) (p v : Str) (h : getParam (written ed) p = .ok none) (hp : ed.perm ≠ .deny) :
    ∃ ed' : TEd, setT ed p v = .ok ed' ∧
      ed'.netlist = ed.netlist.take (ed.netlist.length - 2) ++
        .own (.prim (".PARAM ".toList ++ p ++ "=".toList ++ v ++ "  ; Batch instruction\n".toList)) :: ed.netlist.drop (ed.netlist.length - 2) ∧
      ed'.perm = ed.perm ∧ ed'.calls = if ed.perm = .inform then ed.calls ++ [(p, v, .addParameter)] else ed.calls := by
  obtain ⟨h1, h2, h3⟩ := findT_corr p ed.netlist
  have hline : paramLine p v = ".PARAM ".toList ++ p ++ "=".toList ++ v ++ "  ; Batch instruction\n".toList := by
    have e : "=".toList = ['='] := rfl
    unfold paramLine
    generalize "  ; Batch instruction\n".toList = T
    generalize ".PARAM ".toList = K
    rw [e]
    simp only [List.append_assoc, List.cons_append, List.nil_append]
  unfold setT
  rw [if_neg hp]
  have hw : (written ed).netlist = flat ed.netlist := rfl
  rcases hr : findT p ed.netlist with x | _ | ⟨path, m⟩
  · unfold getParam at h; rw [hw, h1 x hr] at h; simp at h
  · refine ⟨_, rfl, ?_⟩
    rw [← hline]
    unfold recordT insertTree
    by_cases hi : ed.perm = .inform
    · rw [if_pos hi, if_pos hi]; exact ⟨rfl, rfl, rfl⟩
    · rw [if_neg hi, if_neg hi]; exact ⟨rfl, rfl, rfl⟩
  · obtain ⟨_, _, n, _, _, e, _⟩ := h3 path m hr
    unfold getParam at h; rw [hw, e] at h; simp at h

/-- Several calls; one that raises changes nothing. -/
def setManyT (ed : TEd) : List (Str × Str) → TEd
  | [] => ed
  | (p, v) :: l => match setT ed p v with
    | .ok ed' => setManyT ed' l
    | .error _ => setManyT ed l

theorem set_stepT (ed : TEd) (d : List SDir) (hd : flat ed.netlist = d.map SDir.elem) (h : ∀ x ∈ d, x.Ok) (hp : ed.perm ≠ .deny) (p v : Str) (hn : Name p)
    (hnl : ¬ NumberLike p) (hv : Value v) :
    ∃ (ed' : TEd) (d' : List SDir), setT ed p v = .ok ed' ∧ flat ed'.netlist = d'.map SDir.elem ∧ (∀ x ∈ d', x.Ok) ∧ ed'.perm = ed.perm ∧
      ∀ q, valueOf q d' = if Same q p then some v else valueOf q d := by
  have hg := C62_get (written ed) d hd h p
  cases hx : valueOf p d with
  | some x =>
    obtain ⟨ed', d', e1, e2, e3, e4, e5⟩ := set_step (written ed) d hd h hp p v hn hnl hv
    have := (C62_include_change ed p v (by rw [hg, hx]; simp)).1
    rw [e1] at this
    rcases hs : setT ed p v with y | ed1
    · rw [hs] at this; simp [Except.map] at this
    · rw [hs] at this
      simp only [Except.map, Except.ok.injEq] at this
      subst this
      exact ⟨ed1, d', rfl, e2, e3, e4, e5⟩
  | none =>
    obtain ⟨ed', e1, e2, e3, _⟩ := C62_include_new ed p v (by rw [hg, hx]) hp
    -- the document splits where the outer netlist was split
    have hsp : flat (ed.netlist.take (ed.netlist.length - 2)) ++ flat (ed.netlist.drop (ed.netlist.length - 2)) = d.map SDir.elem := by
      rw [← flat_append, List.take_append_drop, hd]
    obtain ⟨d1, d2, s1, s2, s3⟩ := List.append_eq_map_iff.1 hsp
    refine ⟨ed', d1 ++ .params [] (newLine p v) :: d2, e1, ?_, ?_, e3, ?_⟩
    · rw [e2, flat_append, ← s2, List.map_append]
      congr 1
      rw [List.map_cons, s3]
      simp only [flat, flat1, List.cons_append, List.nil_append]
      congr 1
      simp [SDir.elem, newLine, Line.text, Item.text]
    · intro y hy
      rcases List.mem_append.1 hy with m | m
      · exact h y (by rw [s1]; simp [m])
      · rcases List.mem_cons.1 m with rfl | m
        · exact newLine_ok p v hn hnl hv
        · exact h y (by rw [s1]; simp [m])
    · intro q
      have hsplit : valueOf q d = (valueOf q d1).or (valueOf q d2) := by
        rw [s1]; simp only [valueOf, List.flatMap_append, Props.ParamLine.find_append]
      have hv' : valueOf q (d1 ++ .params [] (newLine p v) :: d2) = (valueOf q d1).or ((find q (newLine p v).items).or (valueOf q d2)) := by
        simp only [valueOf, List.flatMap_append, List.flatMap_cons, Props.ParamLine.find_append, SDir.items]
      rw [hv']
      by_cases hs : Same q p
      · have hq : valueOf q d = none := by rw [← hx]; exact Props.ParamLine.find_same p q hs _
        rw [hq] at hsplit
        have h0 : valueOf q d1 = none := by
          cases hz : valueOf q d1 with
          | none => rfl
          | some z => rw [hz] at hsplit; simp at hsplit
        have hpq : Same p q := hs.symm
        rw [if_pos hs, h0]
        simp [newLine, find, hpq]
      · have hpq : ¬ Same p q := fun z => hs z.symm
        rw [if_neg hs, hsplit]
        simp [newLine, find, hpq]

/-- Reading after any sequence of set_parameter calls, with included files at any depth. -/
theorem C62_include_history (ops : List (Str × Str)) (hops : ∀ o ∈ ops, Name o.1 ∧ ¬ NumberLike o.1 ∧ Value o.2) :
    ∀ (ed : TEd) (d : List SDir), flat ed.netlist = d.map SDir.elem → (∀ x ∈ d, x.Ok) → ed.perm ≠ .deny → ∀ q : Str,
      getT (setManyT ed ops).netlist q = .ok (((ops.reverse.find? (fun o => decide (Same q o.1))).map Prod.snd).or (valueOf q d)) := by
  induction ops with
  | nil => intro ed d hd h _ q; rw [setManyT, C62_include_get]; exact C62_get (written ed) d hd h q
  | cons o ops ih =>
    intro ed d hd h hp q
    obtain ⟨p, v⟩ := o
    obtain ⟨hn, hnl, hv⟩ := hops (p, v) (by simp)
    obtain ⟨ed', d', e1, e2, e3, e4, e5⟩ := set_stepT ed d hd h hp p v hn hnl hv
    have := ih (fun o ho => hops o (by simp [ho])) ed' d' e2 e3 (by rw [e4]; exact hp) q
    simp only [setManyT, e1]
    rw [this]
    simp only [List.reverse_cons, List.find?_append, List.find?_cons, List.find?_nil]
    cases hf : ops.reverse.find? (fun o => decide (Same q o.1)) with
    | some o => simp
    | none =>
      simp only [Option.none_or, Option.map_none, e5]
      by_cases hs : Same q p
      · simp [hs]
      · simp [hs]

/-! ### Names -/

theorem lineNames_append (b : List Elem) : ∀ a : List Elem,
    (∀ x, lineNames a = .error x → lineNames (a ++ b) = .error x) ∧
    (∀ r, lineNames a = .ok r → lineNames (a ++ b) = (lineNames b).map (r ++ ·)) := by
  intro a
  induction a with
  | nil =>
    refine ⟨fun x h => by simp [lineNames] at h, fun r h => ?_⟩
    simp only [lineNames, Except.ok.injEq] at h; subst h
    rcases hb : lineNames b with x | y <;> simp [Except.map, hb]
  | cons e a ih =>
    obtain ⟨i1, i2⟩ := ih
    simp only [List.cons_append, lineNames]
    cases hl : lookNames e with
    | fail => exact ⟨fun _ h => h, fun _ h => by simp at h⟩
    | skip => exact ⟨i1, i2⟩
    | line s =>
      simp only
      cases hc : lineCommand s with
      | none => exact ⟨fun _ h => h, fun _ h => by simp at h⟩
      | some cmd =>
        simp only
        rcases ha : lineNames a with x | r
        · rw [i1 x ha]; exact ⟨fun _ h => h, fun _ h => by simp at h⟩
        · rw [i2 r ha]
          refine ⟨fun _ h => by simp at h, fun r' h => ?_⟩
          simp only [Except.ok.injEq] at h; subst h
          rcases hb : lineNames b with x | y <;> simp [Except.map]

mutual
theorem names1_flat : ∀ t : Tree, (∀ x, names1 t = .error x → lineNames (flat1 t) = .error x) ∧
    (∀ r, names1 t = .ok r → ∃ r', lineNames (flat1 t) = .ok r' ∧ r.Perm r')
  | .own e => by
    have hf : lineNames (flat1 (.own e)) = lineNames [e] := rfl
    rw [hf]
    simp only [lineNames, names1]
    cases hl : lookNames e with
    | fail => exact ⟨fun _ h => h, fun _ h => by simp at h⟩
    | skip => exact ⟨fun _ h => by simp at h, fun r h => ⟨r, h, List.Perm.refl _⟩⟩
    | line s =>
      simp only
      cases hc : lineCommand s with
      | none => exact ⟨fun _ h => h, fun _ h => by simp at h⟩
      | some cmd =>
        refine ⟨fun _ h => by simp at h, fun r h => ⟨r, ?_, List.Perm.refl _⟩⟩
        simp only [List.append_nil]; exact h
  | .file l => by
    obtain ⟨h1, h2⟩ := namesT_flat l
    simp only [names1, flat1]
    rcases hr : namesT l with x | r
    · exact ⟨fun y h => h1 y (by rw [hr]; exact h), fun _ h => by simp [Except.map] at h⟩
    · refine ⟨fun _ h => by simp [Except.map] at h, fun r' h => ?_⟩
      simp only [Except.map, Except.ok.injEq] at h; subst h
      obtain ⟨q, e1, e2⟩ := h2 r hr
      exact ⟨q, e1, (Props.ParamLine.sorted_spec r).1.trans e2⟩
theorem namesT_flat : ∀ ts : List Tree, (∀ x, namesT ts = .error x → lineNames (flat ts) = .error x) ∧
    (∀ r, namesT ts = .ok r → ∃ r', lineNames (flat ts) = .ok r' ∧ r.Perm r')
  | [] => ⟨fun _ h => by simp [namesT] at h, fun r h => ⟨r, h, List.Perm.refl _⟩⟩
  | t :: l => by
    obtain ⟨a1, a2⟩ := names1_flat t
    obtain ⟨b1, b2⟩ := namesT_flat l
    obtain ⟨c1, c2⟩ := lineNames_append (flat l) (flat1 t)
    simp only [namesT, flat]
    rcases ht : names1 t with x | r
    · exact ⟨fun y h => by simp only [Except.error.injEq] at h; subst h; exact c1 x (a1 x ht), fun _ h => by simp at h⟩
    · obtain ⟨r', e1, e2⟩ := a2 r ht
      simp only
      rcases hl : namesT l with x | q
      · refine ⟨fun y h => ?_, fun _ h => by simp at h⟩
        simp only [Except.error.injEq] at h; subst h
        rw [c2 r' e1, b1 x hl]; rfl
      · obtain ⟨q', f1, f2⟩ := b2 q hl
        refine ⟨fun _ h => by simp at h, fun z h => ?_⟩
        simp only [Except.ok.injEq] at h; subst h
        exact ⟨r' ++ q', by rw [c2 r' e1, f1]; rfl, e2.append f2⟩
end

theorem sorted_perm (a b : List Str) (h : a.Perm b) : sorted a = sorted b := by
  obtain ⟨a1, a2⟩ := Props.ParamLine.sorted_spec a
  obtain ⟨b1, b2⟩ := Props.ParamLine.sorted_spec b
  exact ((a1.trans h).trans b1.symm).eq_of_pairwise (fun x y _ _ h1 h2 => List.le_antisymm h1 h2) a2 b2

/-- get_all_parameter_names: those of the netlist and of all included files, in one sorted list. -/
theorem C62_include_names (ed : TEd) : allNamesT ed = Model.SpiceParam.allNames (written ed) := by
  obtain ⟨h1, h2⟩ := namesT_flat ed.netlist
  unfold allNamesT Model.SpiceParam.allNames written
  rcases hr : namesT ed.netlist with x | r
  · simp only [h1 x hr, Except.map]
  · obtain ⟨r', e1, e2⟩ := h2 r hr
    simp only [e1]
    simp only [Except.map, sorted_perm r r' e2]

/-- A netlist including a file that includes another one. -/
def sampleTree : TEd := ⟨.inform,
  [.own (.text "* main\n".toList),
   .file [.own (.prim ".param a=1 b=2\n".toList), .file [.own (.prim ".param c=3\n".toList)]],
   .own (.prim ".param C=4\n".toList), .own (.prim ".end\n".toList)], []⟩

def written? (r : Except Err TEd) : List String := match r with
  | .ok ed => (flat ed.netlist).map (fun e => match e with | .text s => String.ofList s | .prim s => String.ofList s | _ => "?")
  | .error _ => []

theorem C62_include_sample :
    written? (setT sampleTree "c".toList "7".toList) = ["* main\n", ".param a=1 b=2\n", ".param c= 7\n", ".param C=4\n", ".end\n"] ∧
    written? (setT sampleTree "d".toList "7".toList) =
      ["* main\n", ".param a=1 b=2\n", ".param c=3\n", ".PARAM d=7  ; Batch instruction\n", ".param C=4\n", ".end\n"] := by
  decide +kernel

example : (lineNames (flat sampleTree.netlist)).toOption = some ["A".toList, "B".toList, "C".toList, "C".toList] := by
  decide +kernel

end Props.IncParam
