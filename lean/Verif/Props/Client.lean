import Verif.Props.Server
/-
C42: the iterator of the client of the simulation server.
-/
namespace Props.Client
open Model.Server Spec.ServerHistory Lemmas.Server Spec.ClientTrace Props.Server

theorem yielded_snoc {tr : List (CAct × Option COut)} {x : CAct × Option COut} : yielded (tr ++ [x]) = yielded tr ++ yielded [x] := by
  unfold yielded; rw [List.filterMap_append]
theorem launched_snoc {tr : List (CAct × Option COut)} {x : CAct × Option COut} : launched (tr ++ [x]) = launched tr ++ launched [x] := by
  unfold launched; rw [List.filterMap_append]
theorem refused_snoc {tr : List (CAct × Option COut)} {x : CAct × Option COut} :
    Refused (tr ++ [x]) ↔ Refused tr ∨ x.2 = some (.id none) := by
  unfold Refused
  simp only [List.mem_append, List.mem_singleton]
  constructor
  · rintro ⟨a, h | h⟩
    · exact Or.inl ⟨a, h⟩
    · exact Or.inr (by rw [← h])
  · rintro (⟨a, h⟩ | h)
    · exact ⟨a, Or.inl h⟩
    · exact ⟨x.1, Or.inr (by rw [← h])⟩
theorem received_snoc {tr : List (CAct × Option COut)} {x : CAct × Option COut} {r : Nat} :
    Received (tr ++ [x]) r ↔ Received tr r ∨ ∃ d, x = (.fetch r, some (.file d)) := by
  unfold Received
  simp only [List.mem_append, List.mem_singleton]
  constructor
  · rintro ⟨d, h | h⟩
    · exact Or.inl ⟨d, h⟩
    · exact Or.inr ⟨d, h.symm⟩
  · rintro (⟨d, h⟩ | ⟨d, h⟩)
    · exact ⟨d, Or.inl h⟩
    · exact ⟨d, Or.inr h.symm⟩

theorem asked_snoc {tr : List (CAct × Option COut)} {x : CAct × Option COut} {r : Nat} :
    Asked (tr ++ [x]) r ↔ Asked tr r ∨ ∃ o, x = (.fetch r, some o) ∧ o ≠ .invalid := by
  unfold Asked
  simp only [List.mem_append, List.mem_singleton]
  constructor
  · rintro ⟨o, h | h, ho⟩
    · exact Or.inl ⟨o, h, ho⟩
    · exact Or.inr ⟨o, h.symm, ho⟩
  · rintro (⟨d, h, ho⟩ | ⟨d, h, ho⟩)
    · exact ⟨d, Or.inl h, ho⟩
    · exact ⟨d, Or.inr h.symm, ho⟩

/-- The client, its server and their histories. -/
structure CInv (y : Sys) (h : History) (tr : List (CAct × Option COut)) : Prop where
  inv : Inv y.server h
  isOpen : IsOpen h y.sid
  launch : launched tr = startedBy h y.sid
  ynodup : (yielded tr).Nodup
  ysub : ∀ r ∈ yielded tr, r ∈ launched tr
  yend : ∀ r ∈ yielded tr, r ∈ (ended h).map Prod.fst
  snodup : y.client.started.Nodup
  some' : ∀ r, some r ∈ y.client.started ↔ r ∈ launched tr ∧ r ∉ yielded tr
  none' : none ∈ y.client.started ↔ Refused tr
  received : ∀ r, r ∈ launched tr → (r ∈ fetched h ↔ Received tr r)
  recvd : ∀ r, Asked tr r → r ∈ yielded tr
  tnodup : y.client.stored.Nodup
  stored : ∀ r, some r ∈ y.client.stored ↔ r ∈ yielded tr ∧ ¬ Asked tr r
  content : ∀ r d, (CAct.fetch r, some (COut.file d)) ∈ tr → (r, some d) ∈ ended h

theorem received_asked {tr : List (CAct × Option COut)} {r : Nat} (h : Received tr r) : Asked tr r := by
  obtain ⟨d, h⟩ := h; exact ⟨_, h, by simp⟩

/-- A step that leaves the client as it is, and tells nothing. -/
theorem CInv.quiet {y : Sys} {h e : History} {tr : List (CAct × Option COut)} {st : St} {x : CAct × Option COut} (c : CInv y h tr)
    (hi : Inv st (h ++ e)) (ho : IsOpen (h ++ e) y.sid) (hs : startedBy (h ++ e) y.sid = startedBy h y.sid)
    (hf : ∀ r ∈ startedBy h y.sid, r ∈ fetched (h ++ e) ↔ r ∈ fetched h)
    (h1 : yielded [x] = []) (h2 : launched [x] = []) (h3 : x.2 ≠ some (.id none)) (h4 : ∀ r o, x = (.fetch r, some o) → o = .invalid) :
    CInv { y with server := st } (h ++ e) (tr ++ [x]) := by
  have ey : yielded (tr ++ [x]) = yielded tr := by rw [yielded_snoc, h1, List.append_nil]
  have el : launched (tr ++ [x]) = launched tr := by rw [launched_snoc, h2, List.append_nil]
  have ea : ∀ r, Asked (tr ++ [x]) r ↔ Asked tr r := fun r => by
    rw [asked_snoc]
    constructor
    · rintro (h | ⟨o, h, ho⟩)
      · exact h
      · exact absurd (h4 r o h) ho
    · exact Or.inl
  have ee : ∀ z ∈ ended h, z ∈ ended (h ++ e) := fun z hz => by
    unfold ended at hz ⊢; rw [List.filterMap_append]; exact List.mem_append_left _ hz
  refine ⟨hi, ho, ?_, ?_, ?_, ?_, c.snodup, ?_, ?_, ?_, ?_, c.tnodup, ?_, ?_⟩
  · rw [el, c.launch]; exact hs.symm
  · rw [ey]; exact c.ynodup
  · rw [ey, el]; exact c.ysub
  · rw [ey]
    intro r hr
    obtain ⟨z, hz, hz'⟩ := List.mem_map.mp (c.yend r hr)
    exact List.mem_map.mpr ⟨z, ee z hz, hz'⟩
  · rw [ey, el]; exact c.some'
  · rw [refused_snoc]; simp only [h3, or_false]; exact c.none'
  · intro r hr
    rw [el] at hr
    rw [received_snoc, hf r (by rw [← c.launch]; exact hr), c.received r hr]
    constructor
    · exact Or.inl
    · rintro (h | ⟨d, h⟩)
      · exact h
      · cases h4 r _ h
  · intro r; rw [ea, ey]; exact c.recvd r
  · intro r; rw [ey, ea]; exact c.stored r
  · intro r d hm
    rw [List.mem_append, List.mem_singleton] at hm
    rcases hm with hm | hm
    · exact ee _ (c.content r d hm)
    · cases h4 r _ hm.symm

/-- The frame facts for one step of the server, from any state with a history. -/
theorem frame_step {st : St} {h : History} (i : Inv st h) (a : Act) (s : Nat) (ha : speaksFor a ≠ some s) (hs : IsOpen h s) :
    startedBy (h ++ [(a, (step st a).2)]) s = startedBy h s ∧ IsOpen (h ++ [(a, (step st a).2)]) s ∧
    (∀ r ∈ startedBy h s, r ∈ fetched (h ++ [(a, (step st a).2)]) ↔ r ∈ fetched h) := by
  refine ⟨?_, ?_, ?_⟩
  · rw [startedBy_snoc]
    have : startedBy [(a, (step st a).2)] s = [] := by
      cases a <;> simp [startedBy]
      rename_i s' o
      have : s' ≠ s := fun e => ha (by rw [← e]; rfl)
      cases (step st (Act.run s' o)).2 <;> simp [this]
    rw [this, List.append_nil]
  · refine ⟨opened_snoc.mpr (Or.inl hs.1), ?_⟩
    rw [closed_snoc, not_or]
    refine ⟨hs.2, ?_⟩
    intro e; rw [Prod.mk.injEq] at e; exact ha (by rw [e.1]; rfl)
  · intro r hr
    rw [fetched_snoc, List.mem_append]
    constructor
    · rintro (h' | h')
      · exact h'
      · exfalso
        cases a with
        | get s' r' =>
          have hne : s' ≠ s := fun e => ha (by rw [← e]; rfl)
          simp only [step] at h'
          cases hl : lookup s' st.sessions with
          | none => rw [hl] at h'; simp [fetched] at h'
          | some l =>
            rw [hl] at h'
            simp only at h'
            have hopen : IsOpen h s' := by
              by_cases ho : IsOpen h s'
              · exact ho
              · rw [i.noLook s' ho] at hl; simp at hl
            rw [i.openLook s' hopen] at hl
            cases hl
            by_cases hc : (startedBy h s').contains r'
            · rw [if_pos hc] at h'
              cases hf : fetch r' st.completed with
              | none => rw [hf] at h'; simp [fetched] at h'
              | some d =>
                rw [hf] at h'
                simp [fetched] at h'
                subst h'
                exact hne (i.disj s' s r (by simpa using hc) hr)
            · rw [if_neg hc] at h'; simp [fetched] at h'
        | start => simp [fetched] at h'
        | run s' o => simp [fetched] at h'
        | sources s' => simp [fetched] at h'
        | status s' => simp [fetched] at h'
        | close s' => simp [fetched] at h'
        | finish r' z => simp [fetched] at h'
    · exact Or.inl

theorem addKey_nodup {k : Option Nat} {l : List (Option Nat)} (h : l.Nodup) : (addKey k l).Nodup := by
  unfold addKey
  split
  · exact h
  · rename_i hk
    exact List.nodup_append.mpr ⟨h, by simp, by
      intro a ha b hb e
      simp at hb
      exact hk (by rw [← hb, ← e]; simpa using ha)⟩
theorem mem_addKey {k x : Option Nat} {l : List (Option Nat)} : x ∈ addKey k l ↔ x ∈ l ∨ x = k := by
  unfold addKey
  split
  · rename_i hk
    constructor
    · exact Or.inl
    · rintro (h | rfl)
      · exact h
      · simpa using hk
  · simp

/-- status as the client sees it. -/
theorem status_answer {st : St} {h : History} (i : Inv st h) {s : Nat} (ho : IsOpen h s) :
    step st (.status s) = (st, .list ((st.completed.map Prod.fst).filter (fun r => (startedBy h s).contains r))) := by
  simp only [step, i.openLook s ho]

/-- get_files as the client sees it. -/
theorem get_answer {st : St} {h : History} (i : Inv st h) {s r : Nat} (ho : IsOpen h s) (hr : r ∈ startedBy h s) :
    step st (.get s r) = match fetch r st.completed with
      | some d => ({ st with completed := erase r st.completed }, .data d)
      | none => (st, .noData) := by
  simp only [step, i.openLook s ho]
  rw [if_pos (by simpa using hr)]
  rfl

theorem exec_one (st : St) (a : Act) : exec st [a] = ((step st a).1, [(a, (step st a).2)]) := rfl

/-- A call of run that was not given a number. -/
theorem CInv.noRun {y : Sys} {h : History} {tr : List (CAct × Option COut)} {st : St} (c : CInv y h tr) {o : Outcome} {q : Out}
    (hi : Inv st (h ++ [(.run y.sid o, q)])) (hq : q = .refused ∨ q = .fault) :
    CInv { y with server := st, client := (clientRun y.client q).1 } (h ++ [(.run y.sid o, q)])
      (tr ++ [(.run o, some (clientRun y.client q).2)]) := by
  have hs : startedBy (h ++ [(.run y.sid o, q)]) y.sid = startedBy h y.sid := by
    rw [startedBy_snoc]; rcases hq with rfl | rfl <;> simp [startedBy]
  have ho : IsOpen (h ++ [(.run y.sid o, q)]) y.sid := by
    refine ⟨opened_snoc.mpr (Or.inl c.isOpen.1), ?_⟩
    rw [closed_snoc]; simp [c.isOpen.2]
  have hf : ∀ r ∈ startedBy h y.sid, r ∈ fetched (h ++ [(.run y.sid o, q)]) ↔ r ∈ fetched h := fun r _ => by
    rw [fetched_snoc]; simp [fetched]
  rcases hq with rfl | rfl
  · simp only [clientRun]
    -- as when nothing is told, but for the key -1
    have hy : yielded (tr ++ [(CAct.run o, some (COut.id none))]) = yielded tr := by rw [yielded_snoc]; simp [yielded]
    have hl : launched (tr ++ [(CAct.run o, some (COut.id none))]) = launched tr := by rw [launched_snoc]; simp [launched]
    have ha : ∀ r, Asked (tr ++ [(CAct.run o, some (COut.id none))]) r ↔ Asked tr r := fun r => by rw [asked_snoc]; simp
    have he : ended (h ++ [(.run y.sid o, .refused)]) = ended h := by rw [ended_snoc]; simp [ended]
    refine ⟨hi, ho, ?_, ?_, ?_, ?_, addKey_nodup c.snodup, ?_, ?_, ?_, ?_, c.tnodup, ?_, ?_⟩
    · rw [hl, c.launch]; exact hs.symm
    · rw [hy]; exact c.ynodup
    · rw [hy, hl]; exact c.ysub
    · rw [hy, he]; exact c.yend
    · intro r; rw [hy, hl, mem_addKey, ← c.some']; simp
    · rw [mem_addKey, refused_snoc]; simp
    · intro r hr
      rw [hl] at hr
      rw [received_snoc, hf r (by rw [← c.launch]; exact hr), c.received r hr]; simp
    · intro r; rw [ha, hy]; exact c.recvd r
    · intro r; rw [ha, hy]; exact c.stored r
    · intro r d hm
      rw [he]
      apply c.content r d
      simpa using hm
  · exact c.quiet hi ho hs hf rfl rfl (by simp [clientRun]) (by simp)

theorem cinv_step {y : Sys} {h : History} {tr : List (CAct × Option COut)} (c : CInv y h tr) (a : CAct)
    (hf : ∀ b : Act, a = .other b → speaksFor b ≠ some y.sid) :
    (cstep y a).1.sid = y.sid ∧ CInv (cstep y a).1 (h ++ (exec y.server (requests1 y a)).2) (tr ++ [(a, (cstep y a).2)]) := by
  cases a with
  | other b =>
    refine ⟨rfl, ?_⟩
    obtain ⟨f1, f2, f3⟩ := frame_step c.inv b y.sid (hf b rfl) c.isOpen
    exact c.quiet (inv_step c.inv b) f2 f1 f3 rfl rfl (by simp [cstep]) (by simp)
  | run o =>
    refine ⟨rfl, ?_⟩
    simp only [requests1, exec_one]
    have hi := inv_step c.inv (.run y.sid o)
    simp only [cstep]
    have hl := c.inv.openLook y.sid c.isOpen
    cases o with
    | started =>
      have e : step y.server (.run y.sid .started) = ({ y.server with runno := y.server.runno + 1, active := y.server.active ++ [y.server.runno + 1], sessions := push y.sid (y.server.runno + 1) y.server.sessions },
          .runno (y.server.runno + 1)) := by simp only [step, hl]
      rw [e] at hi ⊢
      simp only [clientRun]
      have hbig : y.server.runno + 1 ∉ launched tr := fun hm => by
        rw [c.launch] at hm; have := c.inv.startle y.sid _ hm; omega
      have el : ∀ x, launched (tr ++ [(x, some (COut.id (some (y.server.runno + 1))))]) = launched tr ++ [y.server.runno + 1] := fun x => by
        rw [launched_snoc]; simp [launched]
      have ey : ∀ x, yielded (tr ++ [(x, some (COut.id (some (y.server.runno + 1))))]) = yielded tr := fun x => by
        rw [yielded_snoc]; simp [yielded]
      have ha : ∀ (z : Outcome) r, Asked (tr ++ [(CAct.run z, some (COut.id (some (y.server.runno + 1))))]) r ↔ Asked tr r := fun z r => by rw [asked_snoc]; simp
      have he : ended (h ++ [(.run y.sid .started, .runno (y.server.runno + 1))]) = ended h := by rw [ended_snoc]; simp [ended]
      refine ⟨hi, ?_, ?_, ?_, ?_, ?_, addKey_nodup c.snodup, ?_, ?_, ?_, ?_, c.tnodup, ?_, ?_⟩
      · refine ⟨opened_snoc.mpr (Or.inl c.isOpen.1), ?_⟩
        rw [closed_snoc]; simp [c.isOpen.2]
      · rw [el, startedBy_snoc, c.launch]; simp [startedBy]
      · rw [ey]; exact c.ynodup
      · rw [ey, el]; exact fun r hr => List.mem_append_left _ (c.ysub r hr)
      · rw [ey, he]; exact c.yend
      · intro r
        rw [el, ey, mem_addKey, c.some', List.mem_append, List.mem_singleton, Option.some.injEq]
        constructor
        · rintro (⟨h1, h2⟩ | rfl)
          · exact ⟨Or.inl h1, h2⟩
          · exact ⟨Or.inr rfl, fun hm => hbig (c.ysub _ hm)⟩
        · rintro ⟨h1 | h1, h2⟩
          · exact Or.inl ⟨h1, h2⟩
          · exact Or.inr h1
      · rw [refused_snoc, mem_addKey, c.none']; simp
      · intro r hr
        rw [el, List.mem_append, List.mem_singleton] at hr
        rw [received_snoc, fetched_snoc]
        simp only [fetched, List.filterMap_cons, List.filterMap_nil, List.append_nil, Prod.mk.injEq, reduceCtorEq, false_and, exists_false, or_false]
        rcases hr with hr | rfl
        · exact c.received r hr
        · constructor
          · intro hm
            exact absurd (c.inv.endle _ (c.inv.fend _ hm)) (by omega)
          · intro hm
            exact absurd (c.ysub _ (c.recvd _ (received_asked hm))) hbig
      · intro r; rw [ha, ey]; exact c.recvd r
      · intro r; rw [ha, ey]; exact c.stored r
      · intro r d hm
        rw [he]
        apply c.content r d
        simpa using hm
    | timeout =>
      have e : step y.server (.run y.sid .timeout) = ({ y.server with runno := y.server.runno + 1 }, .refused) := by simp only [step, hl]
      rw [e] at hi ⊢
      exact c.noRun hi (Or.inl rfl)
    | raises =>
      have e : step y.server (.run y.sid .raises) = ({ y.server with runno := y.server.runno + 1 }, .fault) := by simp only [step, hl]
      rw [e] at hi ⊢
      exact c.noRun hi (Or.inr rfl)
  | poll =>
    by_cases hs : y.client.started = []
    · simp only [cstep, requests1, if_pos hs, exec, List.append_nil]
      refine ⟨trivial, ?_⟩
      have hi := c.inv
      rw [← List.append_nil h] at hi ⊢
      exact c.quiet hi (by rw [List.append_nil]; exact c.isOpen) (by rw [List.append_nil]) (by simp) rfl rfl (by simp) (by simp)
    · simp only [cstep, requests1, if_neg hs, exec_one]
      refine ⟨trivial, ?_⟩
      have hi := inv_step c.inv (.status y.sid)
      rw [status_answer c.inv c.isOpen] at hi ⊢
      have ho : IsOpen (h ++ [(.status y.sid, .list ((y.server.completed.map Prod.fst).filter (fun r => (startedBy h y.sid).contains r)))]) y.sid := by
        refine ⟨opened_snoc.mpr (Or.inl c.isOpen.1), ?_⟩
        rw [closed_snoc]; simp [c.isOpen.2]
      have hst : startedBy (h ++ [(.status y.sid, .list ((y.server.completed.map Prod.fst).filter (fun r => (startedBy h y.sid).contains r)))]) y.sid = startedBy h y.sid := by
        rw [startedBy_snoc]; simp [startedBy]
      have hfe : ∀ r ∈ startedBy h y.sid, r ∈ fetched (h ++ [(.status y.sid, .list ((y.server.completed.map Prod.fst).filter (fun r => (startedBy h y.sid).contains r)))]) ↔ r ∈ fetched h := fun r _ => by
        rw [fetched_snoc]; simp [fetched]
      have hen : ended (h ++ [(.status y.sid, .list ((y.server.completed.map Prod.fst).filter (fun r => (startedBy h y.sid).contains r)))]) = ended h := by
        rw [ended_snoc]; simp [ended]
      cases hL : (y.server.completed.map Prod.fst).filter (fun r => (startedBy h y.sid).contains r) with
      | nil =>
        rw [hL] at hi ho hst hfe
        simp only [clientPoll, if_neg hs]
        exact c.quiet hi ho hst hfe rfl rfl (by simp) (by simp)
      | cons r rs =>
        have hrm : r ∈ (y.server.completed.map Prod.fst).filter (fun r => (startedBy h y.sid).contains r) := by rw [hL]; simp
        rw [hL] at hi ho hst hfe hen
        simp only [clientPoll, if_neg hs]
        by_cases hc : y.client.started.contains (some r)
        · rw [if_pos hc]
          simp only
          have hcm : some r ∈ y.client.started := by simpa using hc
          obtain ⟨hla, hny⟩ := (c.some' r).mp hcm
          have ey : yielded (tr ++ [(CAct.poll, some (COut.yields r))]) = yielded tr ++ [r] := by rw [yielded_snoc]; simp [yielded]
          have el : launched (tr ++ [(CAct.poll, some (COut.yields r))]) = launched tr := by rw [launched_snoc]; simp [launched]
          have ha : ∀ r', Asked (tr ++ [(CAct.poll, some (COut.yields r))]) r' ↔ Asked tr r' := fun r' => by rw [asked_snoc]; simp
          have hnst : some r ∉ y.client.stored := fun hm => hny ((c.stored r).mp hm).1
          refine ⟨hi, ho, ?_, ?_, ?_, ?_, c.snodup.erase _, ?_, ?_, ?_, ?_, addKey_nodup c.tnodup, ?_, ?_⟩
          · rw [el, hst]; exact c.launch
          · rw [ey]
            exact List.nodup_append.mpr ⟨c.ynodup, by simp, by
              intro a ha b hb e; simp at hb; exact hny (by rw [← hb, ← e]; exact ha)⟩
          · rw [ey, el]
            intro x hx
            rw [List.mem_append, List.mem_singleton] at hx
            rcases hx with hx | rfl
            · exact c.ysub x hx
            · exact hla
          · rw [ey, hen]
            intro x hx
            rw [List.mem_append, List.mem_singleton] at hx
            rcases hx with hx | rfl
            · exact c.yend x hx
            · obtain ⟨z, hz, hz'⟩ := List.mem_map.mp (List.mem_filter.mp hrm).1
              exact List.mem_map.mpr ⟨z, c.inv.sub.subset hz, hz'⟩
          · intro x
            rw [ey, el, c.snodup.mem_erase_iff, c.some', List.mem_append, List.mem_singleton, Ne, Option.some.injEq]
            tauto
          · rw [refused_snoc, c.snodup.mem_erase_iff, c.none']; simp
          · intro x hx
            rw [el] at hx
            rw [received_snoc, hfe x (by rw [← c.launch]; exact hx), c.received x hx]; simp
          · intro x hx
            rw [ha] at hx
            rw [ey]; exact List.mem_append_left _ (c.recvd x hx)
          · intro x
            rw [ha, ey, mem_addKey, c.stored, List.mem_append, List.mem_singleton, Option.some.injEq]
            constructor
            · rintro (⟨h1, h2⟩ | rfl)
              · exact ⟨Or.inl h1, h2⟩
              · exact ⟨Or.inr rfl, fun hm => hny (c.recvd _ hm)⟩
            · rintro ⟨h1 | h1, h2⟩
              · exact Or.inl ⟨h1, h2⟩
              · exact Or.inr h1
          · intro x d hm
            rw [hen]
            apply c.content x d
            simpa using hm
        · rw [if_neg hc]
          exact c.quiet hi ho hst hfe rfl rfl (by simp) (by simp)
  | fetch r =>
    by_cases hs : y.client.stored.contains (some r)
    · simp only [cstep, requests1, if_pos hs, exec_one]
      refine ⟨trivial, ?_⟩
      have hsm : some r ∈ y.client.stored := by simpa using hs
      obtain ⟨hy, hna⟩ := (c.stored r).mp hsm
      have hla := c.ysub r hy
      have hrs : r ∈ startedBy h y.sid := by rw [← c.launch]; exact hla
      have hi := inv_step c.inv (.get y.sid r)
      rw [get_answer c.inv c.isOpen hrs] at hi ⊢
      have key : ∀ (q : Out) (k : COut) (st' : St), ((∃ d, q = .data d ∧ k = .file d ∧ (r, some d) ∈ ended h) ∨ (q = .noData ∧ k = .nothing)) →
          Inv st' (h ++ [(.get y.sid r, q)]) →
          CInv { y with server := st', client := { y.client with stored := y.client.stored.erase (some r), completedJobs := y.client.completedJobs + 1 } }
            (h ++ [(.get y.sid r, q)]) (tr ++ [(.fetch r, some k)]) := by
        intro q k st' hq hi
        have ey : yielded (tr ++ [(CAct.fetch r, some k)]) = yielded tr := by
          rw [yielded_snoc]; rcases hq with ⟨d, _, rfl, _⟩ | ⟨_, rfl⟩ <;> simp [yielded]
        have el : launched (tr ++ [(CAct.fetch r, some k)]) = launched tr := by
          rw [launched_snoc]; rcases hq with ⟨d, _, rfl, _⟩ | ⟨_, rfl⟩ <;> simp [launched]
        have ha : ∀ r', Asked (tr ++ [(CAct.fetch r, some k)]) r' ↔ Asked tr r' ∨ r' = r := fun r' => by
          rw [asked_snoc]; rcases hq with ⟨d, _, rfl, _⟩ | ⟨_, rfl⟩ <;> simp [eq_comm]
        have hen : ended (h ++ [(.get y.sid r, q)]) = ended h := by rw [ended_snoc]; simp [ended]
        refine ⟨hi, ?_, ?_, ?_, ?_, ?_, c.snodup, ?_, ?_, ?_, ?_, c.tnodup.erase _, ?_, ?_⟩
        · refine ⟨opened_snoc.mpr (Or.inl c.isOpen.1), ?_⟩
          rw [closed_snoc]; simp [c.isOpen.2]
        · rw [el, startedBy_snoc, c.launch]; simp [startedBy]
        · rw [ey]; exact c.ynodup
        · rw [ey, el]; exact c.ysub
        · rw [ey, hen]; exact c.yend
        · rw [ey, el]; exact c.some'
        · rw [refused_snoc, c.none']
          rcases hq with ⟨d, _, rfl, _⟩ | ⟨_, rfl⟩ <;> simp
        · intro x hx
          rw [el] at hx
          rw [received_snoc, fetched_snoc, List.mem_append, c.received x hx]
          rcases hq with ⟨d, rfl, rfl, _⟩ | ⟨rfl, rfl⟩ <;> simp [fetched, eq_comm]
        · intro x hx
          rw [ha] at hx
          rw [ey]
          rcases hx with hx | rfl
          · exact c.recvd x hx
          · exact hy
        · intro x
          rw [ha, ey, c.tnodup.mem_erase_iff, c.stored, Ne, Option.some.injEq]
          tauto
        · intro x d hm
          rw [hen]
          rw [List.mem_append, List.mem_singleton] at hm
          rcases hm with hm | hm
          · exact c.content x d hm
          · rw [Prod.mk.injEq, CAct.fetch.injEq, Option.some.injEq] at hm
            obtain ⟨rfl, hm⟩ := hm
            rcases hq with ⟨d', _, rfl, hd⟩ | ⟨_, rfl⟩
            · cases hm; exact hd
            · cases hm
      cases hfe : fetch r y.server.completed with
      | some d =>
        rw [hfe] at hi
        simp only [clientFetch, if_pos hs]
        exact key _ _ _ (Or.inl ⟨d, rfl, rfl, c.inv.sub.subset ((fetch_some c.inv.cnodup).mp hfe)⟩) hi
      | none =>
        rw [hfe] at hi
        simp only [clientFetch, if_pos hs]
        exact key _ _ _ (Or.inr ⟨rfl, rfl⟩) hi
    · simp only [cstep, requests1, if_neg hs, exec, List.append_nil]
      refine ⟨trivial, ?_⟩
      have hi := c.inv
      rw [← List.append_nil h] at hi ⊢
      exact c.quiet hi (by rw [List.append_nil]; exact c.isOpen) (by rw [List.append_nil]) (by simp) rfl rfl (by simp)
        (by intro r' o e; rw [Prod.mk.injEq, Option.some.injEq] at e; exact e.2.symm)

theorem server_step (y : Sys) (a : CAct) : (cstep y a).1.server = (exec y.server (requests1 y a)).1 := by
  cases a with
  | other b => rfl
  | run o => rfl
  | poll =>
    simp only [cstep, requests1]
    by_cases h : y.client.started = []
    · rw [if_pos h, if_pos h]; rfl
    · rw [if_neg h, if_neg h]; rfl
  | fetch r =>
    simp only [cstep, requests1]
    by_cases h : y.client.stored.contains (some r)
    · rw [if_pos h, if_pos h]; rfl
    · rw [if_neg h, if_neg h]; rfl

theorem exec_append (st : St) (as bs : List Act) :
    exec st (as ++ bs) = ((exec (exec st as).1 bs).1, (exec st as).2 ++ (exec (exec st as).1 bs).2) := by
  induction as generalizing st with
  | nil => rfl
  | cons a as ih => simp only [List.cons_append, exec, ih]

theorem cinv_exec {y : Sys} {h : History} {tr : List (CAct × Option COut)} (c : CInv y h tr) (acts : List CAct) (hf : Foreign y.sid acts) :
    CInv (cexec y acts).1 (h ++ (exec y.server (requests y acts)).2) (tr ++ (cexec y acts).2) := by
  induction acts generalizing y h tr with
  | nil => simpa [cexec, requests, exec] using c
  | cons a as ih =>
    obtain ⟨h1, h2⟩ := cinv_step c a (fun b e => hf b (by rw [e]; simp))
    have := ih h2 (fun b hb => by rw [h1]; exact hf b (List.mem_cons_of_mem _ hb))
    simp only [cexec, requests]
    rw [exec_append, ← server_step]
    simpa [List.append_assoc] using this

/-- The history of the server: before the client came, and since. -/
def serverHistory (as : List Act) (acts : List CAct) : History :=
  (exec init (as ++ .start :: requests (connect (exec init as).1) acts)).2

theorem cinv_reach (as : List Act) (acts : List CAct) (hf : Foreign (connect (exec init as).1).sid acts) :
    CInv (cexec (connect (exec init as).1) acts).1 (serverHistory as acts) (cexec (connect (exec init as).1) acts).2 := by
  have i := inv_reach as
  have hst := inv_step i .start
  have c : CInv (connect (exec init as).1) ((exec init as).2 ++ [(.start, (step (exec init as).1 .start).2)]) [] := by
    have hno : startedBy ((exec init as).2 ++ [(.start, (step (exec init as).1 .start).2)]) (exec init as).1.nextSession = [] := by
      rw [startedBy_snoc, i.snone _ (Nat.le_refl _)]; simp [startedBy]
    refine ⟨hst, ⟨opened_snoc.mpr (Or.inr rfl), ?_⟩, ?_, ?_, ?_, ?_, ?_, ?_, ?_, ?_, ?_, ?_, ?_, ?_⟩
    · rw [closed_snoc]
      rintro (hc | hc)
      · exact absurd (i.closedlt _ hc) (Nat.lt_irrefl _)
      · simp at hc
    · exact hno.symm
    all_goals simp [connect, yielded, launched, Refused, Asked]
  have := cinv_exec c acts hf
  simp only [serverHistory]
  rw [exec_append]
  simpa [exec, connect, List.append_assoc] using this

variable (as : List Act) (acts : List CAct)

/-- C42: whatever happens on the server before and meanwhile, and however the client calls run, next and get_runno_data, the iterator
returns only runs this client started, only after they ended, and no run twice. -/
theorem C42_yields (hf : Foreign (connect (exec init as).1).sid acts) :
    (yielded (cexec (connect (exec init as).1) acts).2).Nodup ∧
    ∀ r ∈ yielded (cexec (connect (exec init as).1) acts).2,
      r ∈ launched (cexec (connect (exec init as).1) acts).2 ∧ r ∈ (ended (serverHistory as acts)).map Prod.fst := by
  have c := cinv_reach as acts hf
  exact ⟨c.ynodup, fun r hr => ⟨c.ysub r hr, c.yend r hr⟩⟩

/-- C42: get_runno_data gives a file for a run the iterator returned and that was not asked for before, exactly when the run ended with
a result, and it is this result; a run not returned, or asked for before, is refused as an invalid run id. -/
theorem C42_fetch (hf : Foreign (connect (exec init as).1).sid acts) (r : Nat) :
    (r ∈ yielded (cexec (connect (exec init as).1) acts).2 ∧ ¬ Asked (cexec (connect (exec init as).1) acts).2 r →
      (∀ d, (r, some d) ∈ ended (serverHistory as acts) → (cstep (cexec (connect (exec init as).1) acts).1 (.fetch r)).2 = some (.file d)) ∧
      ((r, none) ∈ ended (serverHistory as acts) → (cstep (cexec (connect (exec init as).1) acts).1 (.fetch r)).2 = some .nothing)) ∧
    (¬ (r ∈ yielded (cexec (connect (exec init as).1) acts).2 ∧ ¬ Asked (cexec (connect (exec init as).1) acts).2 r) →
      cstep (cexec (connect (exec init as).1) acts).1 (.fetch r) = ((cexec (connect (exec init as).1) acts).1, some .invalid)) := by
  have c := cinv_reach as acts hf
  constructor
  · rintro hy
    have hs : (cexec (connect (exec init as).1) acts).1.client.stored.contains (some r) := by simpa using (c.stored r).mpr hy
    have hla := c.ysub r hy.1
    have hrs : r ∈ startedBy (serverHistory as acts) (cexec (connect (exec init as).1) acts).1.sid := by rw [← c.launch]; exact hla
    have hnf : r ∉ fetched (serverHistory as acts) := fun hm => hy.2 (received_asked ((c.received r hla).mp hm))
    simp only [cstep, if_pos hs, get_answer c.inv c.isOpen hrs]
    constructor
    · intro d hd
      have := (fetch_some c.inv.cnodup).mpr (c.inv.view _ c.isOpen.2 _ hd hrs hnf)
      rw [this]
      simp only [clientFetch, if_pos hs]
    · intro hd
      have hno : fetch r (cexec (connect (exec init as).1) acts).1.server.completed = none := by
        cases hfe : fetch r (cexec (connect (exec init as).1) acts).1.server.completed with
        | none => rfl
        | some d =>
          have h1 := c.inv.sub.subset ((fetch_some c.inv.cnodup).mp hfe)
          have := List.inj_on_of_nodup_map c.inv.enodup h1 hd rfl
          simp at this
      rw [hno]
      simp only [clientFetch, if_pos hs]
  · intro hy
    have hs : ¬ (cexec (connect (exec init as).1) acts).1.client.stored.contains (some r) = true := by
      intro hm; exact hy ((c.stored r).mp (by simpa using hm))
    simp only [cstep, if_neg hs]

/-- C42: the iterator stops exactly when every run this client started was returned and no call of run was answered with -1. -/
theorem C42_stops (hf : Foreign (connect (exec init as).1).sid acts) :
    (cstep (cexec (connect (exec init as).1) acts).1 .poll).2 = some .stop ↔
      (∀ r ∈ launched (cexec (connect (exec init as).1) acts).2, r ∈ yielded (cexec (connect (exec init as).1) acts).2) ∧
      ¬ Refused (cexec (connect (exec init as).1) acts).2 := by
  have c := cinv_reach as acts hf
  have e : (cexec (connect (exec init as).1) acts).1.client.started = [] ↔
      (∀ r ∈ launched (cexec (connect (exec init as).1) acts).2, r ∈ yielded (cexec (connect (exec init as).1) acts).2) ∧
      ¬ Refused (cexec (connect (exec init as).1) acts).2 := by
    rw [List.eq_nil_iff_forall_not_mem]
    constructor
    · intro h
      refine ⟨fun r hr => ?_, fun hn => h none (c.none'.mpr hn)⟩
      by_contra hny
      exact h (some r) ((c.some' r).mpr ⟨hr, hny⟩)
    · rintro ⟨h1, h2⟩ (_ | r) hm
      · exact h2 (c.none'.mp hm)
      · have := (c.some' r).mp hm
        exact this.2 (h1 r this.1)
  rw [← e]
  simp only [cstep]
  constructor
  · intro h
    by_contra hne
    rw [if_neg hne, status_answer c.inv c.isOpen] at h
    simp only [clientPoll, if_neg hne] at h
    split at h
    · simp at h
    · split at h <;> simp at h
    · simp at h
  · intro h
    rw [if_pos h]

/-- The runs of this client that ended and were not returned by the iterator yet, in the order in which they ended. -/
def waiting (h : History) (tr : List (CAct × Option COut)) : List Nat :=
  ((ended h).map Prod.fst).filter (fun r => decide (r ∈ launched tr ∧ r ∉ yielded tr))

/-- C42: if the result of every run returned so far was received, next returns the run that ended first among those not returned yet,
and goes on waiting if there is none (and it does not have to stop). It never fails. -/
theorem C42_next (hf : Foreign (connect (exec init as).1).sid acts)
    (hd : ∀ r ∈ yielded (cexec (connect (exec init as).1) acts).2, Received (cexec (connect (exec init as).1) acts).2 r) :
    (∀ r rs, waiting (serverHistory as acts) (cexec (connect (exec init as).1) acts).2 = r :: rs →
      (cstep (cexec (connect (exec init as).1) acts).1 .poll).2 = some (.yields r)) ∧
    (waiting (serverHistory as acts) (cexec (connect (exec init as).1) acts).2 = [] →
      (cstep (cexec (connect (exec init as).1) acts).1 .poll).2 = some .stop ∨
      (cstep (cexec (connect (exec init as).1) acts).1 .poll).2 = some .again) := by
  have c := cinv_reach as acts hf
  have hw : ((cexec (connect (exec init as).1) acts).1.server.completed.map Prod.fst).filter
      (fun r => (startedBy (serverHistory as acts) (cexec (connect (exec init as).1) acts).1.sid).contains r) =
      waiting (serverHistory as acts) (cexec (connect (exec init as).1) acts).2 := by
    rw [filter_completed c.inv c.isOpen.2]
    apply List.filter_congr
    intro r _
    rw [decide_eq_decide, ← c.launch]
    constructor
    · rintro ⟨h1, h2⟩
      exact ⟨h1, fun hy => h2 ((c.received r h1).mpr (hd r hy))⟩
    · rintro ⟨h1, h2⟩
      exact ⟨h1, fun hm => h2 (c.recvd r (received_asked ((c.received r h1).mp hm)))⟩
  constructor
  · intro r rs hrs
    have hr : r ∈ waiting (serverHistory as acts) (cexec (connect (exec init as).1) acts).2 := by rw [hrs]; simp
    have hr' := (List.mem_filter.mp hr).2
    simp only [decide_eq_true_eq] at hr'
    have hin := (c.some' r).mpr hr'
    have hne : (cexec (connect (exec init as).1) acts).1.client.started ≠ [] := fun e => by rw [e] at hin; simp at hin
    simp only [cstep, if_neg hne, status_answer c.inv c.isOpen, hw, hrs, clientPoll]
    rw [if_pos (by simpa using hin)]
  · intro hrs
    by_cases hne : (cexec (connect (exec init as).1) acts).1.client.started = []
    · left; simp only [cstep, if_pos hne]
    · right; simp only [cstep, if_neg hne, status_answer c.inv c.isOpen, hw, hrs, clientPoll]

/-- C42 (finding): once a call of run was answered with -1 (the server had no free place in time), the iterator never stops, even when
every run was returned and fetched: the loop over the client goes on for ever. -/
theorem C42_refused_never_stops (hf : Foreign (connect (exec init as).1).sid acts)
    (hr : Refused (cexec (connect (exec init as).1) acts).2) :
    (cstep (cexec (connect (exec init as).1) acts).1 .poll).2 ≠ some .stop := by
  intro h
  exact ((C42_stops as acts hf).mp h).2 hr

/-- C42 (finding): asked again before the returned run was fetched, the iterator raises KeyError, and so it does for ever after a run that
ended without any file (fetched or not): status keeps telling it first. -/
theorem C42_keyError_witness :
    (cexec (connect init) [.run .started, .run .started, .other (.finish 1 (some 5)), .poll, .poll]).2.map Prod.snd =
      [some (.id (some 1)), some (.id (some 2)), none, some (.yields 1), some .keyError] ∧
    (cexec (connect init) [.run .started, .run .started, .other (.finish 1 none), .poll, .fetch 1, .other (.finish 2 (some 6)), .poll, .poll]).2.map Prod.snd =
      [some (.id (some 1)), some (.id (some 2)), none, some (.yields 1), some .nothing, none, some .keyError, some .keyError] := by
  decide

/-- C42: two clients, one of them the client of interest: the loop of the documentation. -/
example : (cexec (connect (exec init [.start, .run 0 .started]).1)
    [.run .started, .other (.run 0 .started), .run .started, .other (.finish 1 (some 4)), .poll, .other (.finish 4 (some 8)),
     .other (.finish 2 (some 9)), .poll, .fetch 4, .poll, .fetch 2, .poll]).2.map Prod.snd =
    [some (.id (some 2)), none, some (.id (some 4)), none, some .again, none, none, some (.yields 4), some (.file 8), some (.yields 2),
     some (.file 9), some .stop] := by decide

end Props.Client
