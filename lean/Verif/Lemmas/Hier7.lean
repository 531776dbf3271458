import Verif.Lemmas.Hier6
namespace Lemmas.Hier
open Model.PyStr Model.Hier Spec.Hier
open Model.Netlist (Str)

structure Inv (ed : Ed) : Prop where
  static : Static ed.net
  nodup : (addrs ed.net).Nodup
  lt : ∀ a ∈ addrs ed.net, a < ed.store.fresh
  named : ∀ c ∈ copies ed.net, Named ed.store.vals c

theorem Loaded.inv {ed : Ed} (h : Loaded ed) : Inv ed where
  static := Pure.static _ h.noCopies
  nodup := h.own
  lt := h.known
  named := by intro c hc; rw [pure_copies _ h.noCopies] at hc; simp at hc

theorem scope_nil (m : Nat) : ScopeOK [] m := fun c hc => by simp at hc

theorem ssim_nil (v v' : Nat → Str) : SSim v v' [] [] := .nil

theorem locate_mark_false (numeric : Str → Bool) (p q : List Str) (sc : List Net) (n : Net) (s : Store) (f : Found)
    (h : locate numeric false p sc n s = .ok f) : markedAt q n = markedAt q f.net := by
  have mono := locate_mark_mono numeric false p q sc n s f h
  by_cases hq : q <+: p → q = p
  · have := locate_mark_off numeric false p q sc n s f h hq
    cases h1 : markedAt q n <;> cases h2 : markedAt q f.net <;> simp_all
  · -- an instance on the way
    simp only [Classical.not_imp] at hq
    obtain ⟨h1, h2⟩ := hq
    cases q with
    | nil => rfl
    | cons r q =>
      have hR := locate_refs numeric false p sc n s f h
      have hl1 : (r :: q).length ≤ p.length := h1.length_le
      have hl2 : (r :: q).length ≠ p.length := fun e => h2 (h1.eq_of_length e)
      have hl3 : p.length = f.via.length + 1 := by rw [← hR]; simp
      have hqt : r :: q = p.take (q.length + 1) := by
        have := List.prefix_iff_eq_take.1 h1
        simpa using this
      have hk : q.length < f.via.length := by simp only [List.length_cons] at hl1 hl2; omega
      have M := locate_mark_via numeric false p sc n s f h q.length f.via[q.length] (List.getElem?_eq_getElem hk)
      rw [hqt, M.1, M.2, Bool.or_false]

/-- A look-up keeps everything that is seen, and the invariant. -/
theorem locate_false_inv (numeric : Str → Bool) (ed : Ed) (p : List Str) (f : Found) (hI : Inv ed) (h : locate numeric false p [] ed.net ed.store = .ok f) :
    Inv { ed with net := f.net, store := f.store } := by
  have G := locate_good numeric false p [] ed.net ed.store f (scope_nil _) hI.static hI.lt hI.nodup h
  have N := locate_named numeric false p [] ed.net ed.store f (scope_nil _) hI.static hI.lt hI.nodup hI.named h
  refine ⟨G.static, G.nodup, G.lt, ?_⟩
  intro c hc
  by_cases hv : c.a ∈ f.via.map Step.a
  · obtain ⟨x, hx, h1, h2, h3, h4⟩ := N.on c hc hv
    have := N.via x hx
    unfold Named at *
    simp only [Bool.or_false] at h4
    simp only
    rw [h4, ← h1, ← h2, ← h3]; exact this
  · exact N.off c hc hv

theorem get_spec (numeric : Str → Bool) (ed : Ed) (path : List Str) (hI : Inv ed) :
    (∃ e, getValue numeric ed path = .error e ∧ seen numeric ed path = none) ∨
    ∃ ed' x, getValue numeric ed path = .ok (ed', x) ∧ seen numeric ed path = some x ∧ (∀ q, seen numeric ed' q = seen numeric ed q) ∧ Inv ed' ∧
      ed'.perm = ed.perm ∧ ed'.calls = ed.calls ∧ (∀ name, findCirc name ed'.net = findCirc name ed.net) ∧ (∀ a, a < ed.store.fresh → ed'.store.vals a = ed.store.vals a) ∧
      (∀ q, markedAt q ed.net = markedAt q ed'.net) := by
  unfold getValue
  cases h : locate numeric false (path.map upper) [] ed.net ed.store with
  | error e => exact Or.inl ⟨e, rfl, locate_error numeric false _ [] ed.net ed.store e (scope_nil _) hI.static hI.lt hI.nodup h⟩
  | ok f =>
    right
    have G := locate_good numeric false _ [] ed.net ed.store f (scope_nil _) hI.static hI.lt hI.nodup h
    refine ⟨_, _, rfl, ?_, ?_, locate_false_inv numeric ed _ f hI h, rfl, rfl, G.circs, G.vals,
      fun q => locate_mark_false numeric _ q [] ed.net ed.store f h⟩
    · have := G.peek (path.map upper) [] (ssim_nil _ _)
      unfold seen
      rw [← this, (peek_route numeric f.store.vals _ [] f.net _ G.route).2]
      simp
    · intro q
      exact G.peek (q.map upper) [] (ssim_nil _ _)

/-- The effect of a successful set_component_value. -/
structure SetOK (numeric : Str → Bool) (ed : Ed) (path : List Str) (v : Str) (ed' : Ed) : Prop where
  inv : Inv ed'
  perm : ed'.perm = ed.perm
  now : seen numeric ed' path = some v
  apart : ∀ q : List Str, ¬ path.map upper <+: q.map upper → ¬ q.map upper <+: path.map upper → seen numeric ed' q = seen numeric ed q
  circs : ∀ name, findCirc name ed'.net = findCirc name ed.net
  defs : ∀ name b, findCirc name ed.net = some b → ∀ a ∈ addrs b, ed'.store.vals a = ed.store.vals a
  via : ∃ via : List Step, ∃ ref : Str, via.map (fun x => upper x.ref) ++ [upper ref] = path.map upper ∧
    (∀ k x, via[k]? = some x → ∀ c : List Str, c.map upper = (path.map upper).take (k + 1) →
      ∃ old, seen numeric ed c = some old ∧ (x.modified = false → x.name = old ++ '_' :: x.ref) ∧ markedAt (c.map upper) ed.net = x.modified ∧
        (ed.perm = .inform → markedAt (c.map upper) ed'.net = true) ∧
        seen numeric ed' c = some (if ed.perm = .inform ∧ x.modified = false then x.name else old)) ∧
    (ed.perm ≠ .inform → ed'.calls = ed.calls) ∧
    (ed.perm = .inform → ∃ renames, ed'.calls = ed.calls ++ renames ++ [(fullRef via ref, v, .updateComponentValue)] ∧ (∀ c ∈ renames, c.2.2 ≠ .updateComponentValue ∨
      ∃ k x, via[k]? = some x ∧ x.modified = false ∧ c = (fullRef (via.take k) x.ref, x.name, .updateComponentValue)))
  unmarks : ∀ q, (q <+: path.map upper → q = path.map upper) → markedAt q ed'.net = true → markedAt q ed.net = true
  marks : ∀ q, ¬ path.map upper <+: q → markedAt q ed.net = true → markedAt q ed'.net = true

theorem beginUpdate_calls : ∀ (xs pre : List Step) (s : Store) (calls : List (Str × Str × Model.Updates.UpdateType)),
    ∃ renames, (beginUpdate pre xs s calls).2 = calls ++ renames ∧ (∀ c ∈ renames, c.2.2 ≠ Model.Updates.UpdateType.updateComponentValue ∨
      ∃ k x, xs[k]? = some x ∧ x.modified = false ∧ c = (fullRef (pre ++ xs.take k) x.ref, x.name, .updateComponentValue)) := by
  intro xs
  induction xs with
  | nil => intro pre s calls; exact ⟨[], by simp [beginUpdate], by simp⟩
  | cons x xs ih =>
    intro pre s calls
    unfold beginUpdate
    by_cases hm : x.modified = true
    · rw [if_pos hm]
      obtain ⟨rn, h1, h2⟩ := ih (pre ++ [x]) s calls
      refine ⟨rn, h1, fun c hc => (h2 c hc).imp id ?_⟩
      rintro ⟨k, y, h3, h4, h5⟩
      exact ⟨k + 1, y, by simpa using h3, h4, by simpa [List.append_assoc] using h5⟩
    · rw [if_neg hm]
      obtain ⟨rn, h1, h2⟩ := ih (pre ++ [x]) (s.set x.a x.name)
        (calls ++ [(fullRef pre ("CLONE(".toList ++ s.vals x.a ++ [')']), s.vals x.a, .cloneSubcircuit), (fullRef pre x.ref, x.name, .updateComponentValue)])
      refine ⟨_, by simp only; rw [h1, List.append_assoc], fun c hc => ?_⟩
      rcases List.mem_append.1 hc with hc | hc
      · simp only [List.mem_cons, List.not_mem_nil, or_false] at hc
        rcases hc with rfl | rfl
        · left; simp
        · right; exact ⟨0, x, rfl, by simpa using hm, by simp⟩
      · refine (h2 c hc).imp id ?_
        rintro ⟨k, y, h3, h4, h5⟩
        exact ⟨k + 1, y, by simpa using h3, h4, by simpa [List.append_assoc] using h5⟩

theorem set_spec (numeric : Str → Bool) (ed : Ed) (path : List Str) (v : Str) (hI : Inv ed) :
    (∃ e, setValue numeric ed path v = (ed, some (.lookup e)) ∧ seen numeric ed path = none) ∨
    (ed.perm = .deny ∧ ∃ ed' x, seen numeric ed path = some x ∧ setValue numeric ed path v = (ed', some .permission) ∧ (∀ q, seen numeric ed' q = seen numeric ed q) ∧ Inv ed' ∧
      ed'.perm = ed.perm ∧ ed'.calls = ed.calls ∧ (∀ name, findCirc name ed'.net = findCirc name ed.net) ∧ (∀ a, a < ed.store.fresh → ed'.store.vals a = ed.store.vals a) ∧
      (∀ q, markedAt q ed.net = markedAt q ed'.net)) ∨
    (ed.perm ≠ .deny ∧ (seen numeric ed path).isSome = true ∧ ∃ ed', setValue numeric ed path v = (ed', none) ∧ SetOK numeric ed path v ed') := by
  unfold setValue
  cases h0 : locate numeric false (path.map upper) [] ed.net ed.store with
  | error e => exact Or.inl ⟨e, rfl, locate_error numeric false _ [] ed.net ed.store e (scope_nil _) hI.static hI.lt hI.nodup h0⟩
  | ok f =>
    have G0 := locate_good numeric false _ [] ed.net ed.store f (scope_nil _) hI.static hI.lt hI.nodup h0
    have hseen : seen numeric ed path = some (f.store.vals f.a) := by
      have := G0.peek (path.map upper) [] (ssim_nil _ _)
      unfold seen
      rw [← this, (peek_route numeric f.store.vals _ [] f.net _ G0.route).2]
      simp
    right
    simp only
    by_cases hden : ed.perm = .deny
    · left
      rw [if_pos hden]
      refine ⟨hden, _, _, hseen, rfl, fun q => G0.peek (q.map upper) [] (ssim_nil _ _), locate_false_inv numeric ed _ f hI h0, rfl, rfl, G0.circs, G0.vals,
        fun q => locate_mark_false numeric _ q [] ed.net ed.store f h0⟩
    · right
      refine ⟨hden, by rw [hseen]; rfl, ?_⟩
      rw [if_neg hden]
      cases h1 : locate numeric (decide (ed.perm = .inform)) (path.map upper) [] ed.net ed.store with
      | error e =>
        have := locate_error numeric _ _ [] ed.net ed.store e (scope_nil _) hI.static hI.lt hI.nodup h1
        unfold seen at hseen
        rw [this] at hseen
        cases hseen
      | ok g =>
        have G := locate_good numeric _ _ [] ed.net ed.store g (scope_nil _) hI.static hI.lt hI.nodup h1
        have N := locate_named numeric _ _ [] ed.net ed.store g (scope_nil _) hI.static hI.lt hI.nodup hI.named h1
        have R := locate_refs numeric _ _ [] ed.net ed.store g h1
        have M := locate_mark_via numeric _ _ [] ed.net ed.store g h1
        -- the net after the edit is the found net with the target's copy dropped
        have hnet : (if g.isInst = true then dropAt (path.map upper) g.net else g.net) = dropAt (path.map upper) g.net := by
          by_cases hi : g.isInst = true
          · rw [if_pos hi]
          · rw [if_neg hi]
            exact (locate_notinst numeric _ _ [] ed.net ed.store g h1 (by simpa using hi)).symm
        have hWnd : (g.via.map Step.a ++ [g.a]).Nodup := G.nodup.sublist (route_sub _ _ _ G.route)
        have hvnd := (List.nodup_append.1 hWnd).1
        have hga : g.a ∉ g.via.map Step.a := fun hx => (List.nodup_append.1 hWnd).2.2 _ hx _ (by simp) rfl
        have B := beginUpdate_spec g.via [] g.store ed.calls hvnd
        -- the store after the edit
        obtain ⟨s', hs'⟩ : ∃ s' : Store, s' = (if ed.perm = .inform then (beginUpdate [] g.via g.store ed.calls).1 else g.store) := ⟨_, rfl⟩
        have s1 : s'.fresh = g.store.fresh := by rw [hs']; split_ifs <;> [exact B.1; rfl]
        have s2 : ∀ a, a ∉ g.via.map Step.a → s'.vals a = g.store.vals a := by
          intro a ha; rw [hs']; split_ifs <;> [exact B.2.1 a ha; rfl]
        have s3 : ∀ x ∈ g.via, s'.vals x.a = if ed.perm = .inform ∧ x.modified = false then x.name else g.store.vals x.a := by
          intro x hx
          rw [hs']
          by_cases hi : ed.perm = .inform
          · simp only [hi, if_true, true_and]
            rw [B.2.2 x hx]
            cases x.modified <;> simp
          · simp only [hi, if_false, false_and]
        have hsimp : ∀ (α : Type) (a b : α), (if decide (ed.perm = .inform) = true then a else b) = (if ed.perm = .inform then a else b) := by
          intro α a b; by_cases hi : ed.perm = .inform <;> simp [hi]
        -- values after the edit
        have hv1 : ∀ a, a ∉ (g.via.map Step.a ++ [g.a]) → (s'.set g.a v).vals a = g.store.vals a := by
          intro a ha
          simp only [List.mem_append, List.mem_singleton, not_or] at ha
          simp only [Store.set, ha.2, if_false]
          exact s2 a ha.1
        have hD := dropAt_addrs (path.map upper) g.net
        have peekNew : ∀ q : List Str, (path.map upper <+: q → q = path.map upper) →
            peek numeric (s'.set g.a v).vals q [] (dropAt (path.map upper) g.net) = peek numeric (s'.set g.a v).vals q [] g.net :=
          fun q hq => peek_drop numeric _ (path.map upper) q [] [] g.net (ssim_nil _ _) hq
        have hold : ∀ a ∈ addrs ed.net, (s'.set g.a v).vals a = ed.store.vals a ∨ a ∈ g.via.map Step.a ++ [g.a] := by
          intro a ha
          by_cases hW : a ∈ g.via.map Step.a ++ [g.a]
          · exact Or.inr hW
          · left; rw [hv1 a hW, G.vals a (hI.lt a ha)]
        refine ⟨{ ed with net := dropAt (path.map upper) g.net, store := s'.set g.a v,
                          calls := if ed.perm = .inform then (beginUpdate [] g.via g.store ed.calls).2 ++ [(fullRef g.via g.ref, v, .updateComponentValue)] else ed.calls }, ?_, ?_⟩
        · simp only [hsimp, hnet, hs']
          by_cases hi : ed.perm = .inform <;> simp [hi]
        · have circs : ∀ name, findCirc name (dropAt (path.map upper) g.net) = findCirc name ed.net := by
            intro name
            rw [← G.circs name]
            cases hp : path.map upper with
            | nil => rfl
            | cons r p =>
              cases p with
              | nil => exact dropShadow_find r none name g.net
              | cons r2 p => exact dropShadow_find r _ name g.net
          refine ⟨⟨hD.2 G.static, G.nodup.sublist hD.1, ?_, ?_⟩, rfl, ?_, ?_, circs, ?_, ?_, ?_, ?_⟩
          · intro a ha
            simp only [Store.set]
            rw [s1]
            exact G.lt a (hD.1.subset ha)
          · -- names
            intro c hc
            have hcg := copies_drop _ _ c hc
            have hne : c.a ≠ g.a := by
              intro e
              have := drop_last _ _ _ G.route G.nodup c hc
              simp [e] at this
            by_cases hv : c.a ∈ g.via.map Step.a
            · obtain ⟨x, hx, e1, e2, e3, e4⟩ := N.on c hcg hv
              have nx := N.via x hx
              have := s3 x hx
              unfold Named
              simp only [Store.set, hne, if_false]
              rw [← e1, this, e4]
              unfold Named at nx
              by_cases hi : ed.perm = .inform
              · cases hxm : x.modified
                · simp [hi, e3]
                · rw [hxm] at nx; simp only [if_true] at nx; simp [hi, nx, e3]
              · cases hxm : x.modified
                · rw [hxm] at nx; simp only [Bool.false_eq_true, if_false] at nx; simp [hi, nx, ← e3, e2]
                · rw [hxm] at nx; simp only [if_true] at nx; simp [hi, nx, ← e3]
            · refine named_congr ?_ (N.off c hcg hv)
              simp only
              rw [hv1 c.a (by simp only [List.mem_append, List.mem_singleton, not_or]; exact ⟨hv, hne⟩)]
          · -- the value that was set
            unfold seen
            simp only
            rw [peekNew _ (fun _ => rfl), (peek_route numeric _ _ [] g.net _ G.route).2]
            simp [Store.set]
          · -- other paths
            intro q h2 h3
            unfold seen
            simp only
            rw [peekNew (q.map upper) (fun h => (h2 h).elim)]
            rw [← G.peek (q.map upper) [] (ssim_nil _ _)]
            exact (peek_frame numeric g.store.vals (s'.set g.a v).vals (path.map upper) (q.map upper) [] g.net _ (ssim_nil _ _) G.route G.nodup
              (fun a _ ha => (hv1 a ha).symm) h2 h3).symm
          · -- definitions
            intro name b hb a ha
            simp only
            have hb' : findCirc name g.net = some b := by rw [G.circs]; exact hb
            have hda := find_defAddrs name g.net b hb' a ha
            have : a ∉ g.via.map Step.a ++ [g.a] := by
              cases hp : path.map upper with
              | nil =>
                have hr := G.route
                rw [hp] at hr
                simp [route] at hr
              | cons r p =>
                have hr := G.route
                rw [hp] at hr
                cases p with
                | nil => exact routeW_defs r none (by simp) g.net _ hr G.nodup a hda
                | cons r2 p =>
                  unfold route at hr
                  split_ifs at hr
                  exact routeW_defs r _ (by intro k hk; cases hk; exact route_sub _) g.net _ hr G.nodup a hda
            rw [hv1 a this, G.vals a (hI.lt a (find_addrs name ed.net b hb a ha))]
          · -- instances on the way
            refine ⟨g.via, g.ref, R, ?_, ?_, ?_⟩
            · intro k x hx c hc
              have hkl : k < g.via.length := (List.getElem?_eq_some_iff.1 hx).1
              have hlen : (path.map upper).length = g.via.length + 1 := by rw [← R]; simp
              have hpre : ¬ path.map upper <+: (path.map upper).take (k + 1) := by
                intro h
                have := h.length_le
                rw [List.length_take] at this
                omega
              have hrt := route_take (path.map upper) g.net _ k (by omega) G.route
              have hlast : ((g.via.map Step.a ++ [g.a]).take (k + 1)).getLast? = some x.a := by
                rw [List.take_append_of_le_length (by simp; omega), ← List.map_take, List.getLast?_map]
                rw [List.getLast?_eq_getElem?, List.length_take, Nat.min_eq_left (by omega)]
                simp [hx]
              have hxm := List.mem_of_getElem? hx
              have hxa : x.a ≠ g.a := fun e => hga (e ▸ List.mem_map.2 ⟨x, hxm, rfl⟩)
              have hso : seen numeric ed c = some (g.store.vals x.a) := by
                unfold seen
                rw [hc, ← G.peek _ [] (ssim_nil _ _), (peek_route numeric _ _ [] g.net _ hrt).2, hlast]
                rfl
              refine ⟨g.store.vals x.a, hso, ?_, ?_, ?_, ?_⟩
              · intro hm
                have := N.via x hxm
                unfold Named at this
                simpa [hm] using this
              · rw [hc]; exact (M k x hx).1
              · intro hi
                rw [hc]
                refine drop_mark _ _ _ hpre ?_
                rw [(M k x hx).2, hi]; simp
              · unfold seen
                simp only
                rw [hc, peekNew _ (fun h => (hpre h).elim), (peek_route numeric _ _ [] g.net _ hrt).2, hlast]
                simp only [Option.map_some, Store.set, hxa, if_false]
                rw [s3 x hxm]
            · intro hi; simp [hi]
            · intro hi
              obtain ⟨rn, h2, h3⟩ := beginUpdate_calls g.via [] g.store ed.calls
              refine ⟨rn, by simp only [hi, if_true]; rw [h2], ?_⟩
              intro c hc
              simpa using h3 c hc
          · intro q hq hm
            exact locate_mark_off numeric _ _ q [] ed.net ed.store g h1 hq (drop_unmark _ _ _ hm)
          · intro q hq hm
            exact drop_mark _ _ _ hq (locate_mark_mono numeric _ _ q [] ed.net ed.store g h1 hm)

end Lemmas.Hier
