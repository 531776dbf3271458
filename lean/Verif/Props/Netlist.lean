import Verif.Lemmas.Netlist
/-
C28, C29, C30: instructions of a netlist (spice_file.py, spice_subcircuit.py).
-/
namespace Props.Netlist
open Model.Netlist Model.PyStr Spec.Directive Lemmas.Netlist
open Model.Updates (UpdateType)

instance : DecidablePred IsAnalysis := fun s => decidable_of_iff _ (isUnique_iff s)

/-- The instructions and component lines of a netlist. -/
def lines (n : List Elem) : List Str := n.filterMap (fun e => match e.obj with | some (some s) => some s | _ => none)

/-- The analysis directives of a netlist. -/
def analysesOf (n : List Elem) : List Str := (lines n).filter (fun s => decide (IsAnalysis s))

/-- A netlist in which every element has a line that SPICE understands (always so after loading a file). -/
def Sound (n : List Elem) : Prop := (∀ e ∈ n, e.obj ≠ some none) ∧ ∀ s ∈ lines n, lineCommand s ≠ none

/-- The calls of the property. -/
inductive Op where
  | add (s : Str)
  | remove (s : Str)
  | removeX (p : Str → Bool)

/-- A call; one that raises leaves the editor as it was. -/
def apply (ed : Ed) : Op → Ed
  | .add s => match addInstruction ed s with | .ok e => e | .error _ => ed
  | .remove s => match removeInstruction ed s with | .ok (e, _) => e | .error _ => ed
  | .removeX p => match removeX ed p with | .ok (e, _) => e | .error _ => ed

def run (ed : Ed) (ops : List Op) : Ed := ops.foldl apply ed

/-- The analysis directive given last to add_instruction, among the calls that did not raise. -/
def lastAdded : Ed → Option Str → List Op → Option Str
  | _, cur, [] => cur
  | ed, cur, .add s :: ops =>
    lastAdded (apply ed (.add s))
      (match addInstruction ed s with | .ok _ => if IsAnalysis (withNewline s) then some (withNewline s) else cur | .error _ => cur) ops
  | ed, cur, .remove s :: ops => lastAdded (apply ed (.remove s)) cur ops
  | ed, cur, .removeX p :: ops => lastAdded (apply ed (.removeX p)) cur ops

/-! ### Helpers -/

theorem lines_append (a b : List Elem) : lines (a ++ b) = lines a ++ lines b := by simp [lines]
theorem lines_cons (e : Elem) (b : List Elem) : lines (e :: b) = lines [e] ++ lines b := by
  rw [← List.singleton_append, lines_append]
theorem analyses_append (a b : List Elem) : analysesOf (a ++ b) = analysesOf a ++ analysesOf b := by
  simp [analysesOf, lines_append]
theorem analyses_cons (e : Elem) (b : List Elem) : analysesOf (e :: b) = analysesOf [e] ++ analysesOf b := by
  rw [← List.singleton_append, analyses_append]

theorem journal_netlist (ed : Ed) (t : Str) (k : UpdateType) : (ed.journal t k).netlist = ed.netlist := by
  unfold Ed.journal; split <;> rfl
theorem journal_perm (ed : Ed) (t : Str) (k : UpdateType) : (ed.journal t k).perm = ed.perm := by
  unfold Ed.journal; split <;> rfl

theorem findUnique_some : ∀ (n : List Elem) (i : Nat), findUnique n = .ok (some i) →
    ∃ a e b t, n = a ++ e :: b ∧ a.length = i ∧ e.obj = some (some t) ∧ IsAnalysis t ∧ analysesOf a = [] := by
  intro n
  induction n with
  | nil => intro i h; simp [findUnique] at h
  | cons e es ih =>
    intro i h
    unfold findUnique at h
    have step : ∀ (hE : analysesOf [e] = []), (match findUnique es with | .error x => Except.error x | .ok r => .ok (r.map (· + 1))) = .ok (some i) →
        ∃ a e' b t, e :: es = a ++ e' :: b ∧ a.length = i ∧ e'.obj = some (some t) ∧ IsAnalysis t ∧ analysesOf a = [] := by
      intro hE h
      cases hf : findUnique es with
      | error x => rw [hf] at h; cases h
      | ok r =>
        rw [hf] at h
        cases r with
        | none => cases h
        | some j =>
          simp only [Option.map_some, Except.ok.injEq, Option.some.injEq] at h
          obtain ⟨a, e', b, t, hn, hl, ho, ha, hz⟩ := ih j hf
          refine ⟨e :: a, e', b, t, by rw [hn]; rfl, by simp; omega, ho, ha, ?_⟩
          rw [analyses_cons, hE, hz]; rfl
    cases ho : e.obj with
    | none =>
      rw [ho] at h
      exact step (by simp [analysesOf, lines, ho]) h
    | some o =>
      cases o with
      | none => rw [ho] at h; cases h
      | some s =>
        rw [ho] at h
        simp only at h
        cases hu : isUnique s with
        | none => rw [hu] at h; cases h
        | some u =>
          rw [hu] at h
          cases u with
          | true =>
            simp only [Except.ok.injEq, Option.some.injEq] at h
            exact ⟨[], e, es, s, rfl, by simpa using h, ho, (isUnique_iff s).mp hu, rfl⟩
          | false =>
            refine step ?_ h
            have : ¬ IsAnalysis s := by
              intro hh
              rw [(isUnique_iff s).mpr hh] at hu
              cases hu
            simp [analysesOf, lines, ho, this]

theorem findUnique_none : ∀ (n : List Elem), findUnique n = .ok none → analysesOf n = [] := by
  intro n
  induction n with
  | nil => intro _; rfl
  | cons e es ih =>
    intro h
    unfold findUnique at h
    have step : ∀ (hE : analysesOf [e] = []), (match findUnique es with | .error x => Except.error x | .ok r => .ok (r.map (· + 1))) = .ok none →
        analysesOf (e :: es) = [] := by
      intro hE h
      cases hf : findUnique es with
      | error x => rw [hf] at h; cases h
      | ok r =>
        rw [hf] at h
        cases r with
        | none => rw [analyses_cons, hE, ih hf]; rfl
        | some j => cases h
    cases ho : e.obj with
    | none =>
      rw [ho] at h
      exact step (by simp [analysesOf, lines, ho]) h
    | some o =>
      cases o with
      | none => rw [ho] at h; cases h
      | some s =>
        rw [ho] at h
        simp only at h
        cases hu : isUnique s with
        | none => rw [hu] at h; cases h
        | some u =>
          rw [hu] at h
          cases u with
          | true => cases h
          | false =>
            refine step ?_ h
            have : ¬ IsAnalysis s := by
              intro hh
              rw [(isUnique_iff s).mpr hh] at hu
              cases hu
            simp [analysesOf, lines, ho, this]

theorem findUnique_sound : ∀ (n : List Elem), Sound n → ∃ r, findUnique n = .ok r := by
  intro n
  induction n with
  | nil => intro _; exact ⟨none, rfl⟩
  | cons e es ih =>
    rintro ⟨h1, h2⟩
    obtain ⟨r, hr⟩ := ih ⟨fun x hx => h1 x (by simp [hx]), fun s hs => h2 s (by rw [lines_cons]; simp [hs])⟩
    unfold findUnique
    rw [hr]
    cases ho : e.obj with
    | none => exact ⟨_, rfl⟩
    | some o =>
      cases o with
      | none => exact absurd ho (h1 e (by simp))
      | some s =>
        have := h2 s (by simp [lines, ho])
        cases hu : isUnique s with
        | none => exact absurd (by simpa [isUnique] using hu) this
        | some u => simp only [hu]; cases u <;> exact ⟨_, rfl⟩

theorem findText_some (ins : Str) : ∀ (n : List Elem) (i : Nat), findText ins n = .ok (some i) →
    ∃ a e b t, n = a ++ e :: b ∧ a.length = i ∧ e.obj = some (some t) ∧ strip t = strip ins ∧ ∀ s ∈ lines a, strip s ≠ strip ins := by
  intro n
  induction n with
  | nil => intro i h; simp [findText] at h
  | cons e es ih =>
    intro i h
    unfold findText at h
    have step : ∀ (hE : ∀ s ∈ lines [e], strip s ≠ strip ins), (match findText ins es with | .error x => Except.error x | .ok r => .ok (r.map (· + 1))) = .ok (some i) →
        ∃ a e' b t, e :: es = a ++ e' :: b ∧ a.length = i ∧ e'.obj = some (some t) ∧ strip t = strip ins ∧ ∀ s ∈ lines a, strip s ≠ strip ins := by
      intro hE h
      cases hf : findText ins es with
      | error x => rw [hf] at h; cases h
      | ok r =>
        rw [hf] at h
        cases r with
        | none => cases h
        | some j =>
          simp only [Option.map_some, Except.ok.injEq, Option.some.injEq] at h
          obtain ⟨a, e', b, t, hn, hl, ho, ha, hz⟩ := ih j hf
          refine ⟨e :: a, e', b, t, by rw [hn]; rfl, by simp; omega, ho, ha, ?_⟩
          rw [lines_cons]
          intro s hs
          rcases List.mem_append.mp hs with hs | hs
          · exact hE s hs
          · exact hz s hs
    cases ho : e.obj with
    | none =>
      rw [ho] at h
      exact step (by simp [lines, ho]) h
    | some o =>
      cases o with
      | none => rw [ho] at h; cases h
      | some s =>
        rw [ho] at h
        simp only at h
        by_cases hs : strip s = strip ins
        · rw [if_pos hs] at h
          simp only [Except.ok.injEq, Option.some.injEq] at h
          exact ⟨[], e, es, s, rfl, by simpa using h, ho, hs, by simp [lines]⟩
        · rw [if_neg hs] at h
          exact step (by simp [lines, ho, hs]) h

theorem findText_none (ins : Str) : ∀ (n : List Elem), findText ins n = .ok none → ∀ s ∈ lines n, strip s ≠ strip ins := by
  intro n
  induction n with
  | nil => intro _; simp [lines]
  | cons e es ih =>
    intro h
    unfold findText at h
    have step : ∀ (hE : ∀ s ∈ lines [e], strip s ≠ strip ins), (match findText ins es with | .error x => Except.error x | .ok r => .ok (r.map (· + 1))) = .ok none →
        ∀ s ∈ lines (e :: es), strip s ≠ strip ins := by
      intro hE h
      cases hf : findText ins es with
      | error x => rw [hf] at h; cases h
      | ok r =>
        rw [hf] at h
        cases r with
        | some j => cases h
        | none =>
          rw [lines_cons]
          intro s hs
          rcases List.mem_append.mp hs with hs | hs
          · exact hE s hs
          · exact ih hf s hs
    cases ho : e.obj with
    | none =>
      rw [ho] at h
      exact step (by simp [lines, ho]) h
    | some o =>
      cases o with
      | none => rw [ho] at h; cases h
      | some s =>
        rw [ho] at h
        simp only at h
        by_cases hs : strip s = strip ins
        · rw [if_pos hs] at h; cases h
        · rw [if_neg hs] at h
          exact step (by simp [lines, ho, hs]) h

/-- Searching a netlist whose Primitives all have a text does not fail. -/
theorem findText_spec (ins : Str) (n : List Elem) (hn : ∀ e ∈ n, e.obj ≠ some none) :
    ∃ r, findText ins n = .ok r := by
  induction n with
  | nil => exact ⟨none, rfl⟩
  | cons e es ih =>
    obtain ⟨r, hr⟩ := ih (fun x hx => hn x (by simp [hx]))
    unfold findText
    rw [hr]
    cases ho : e.obj with
    | none => exact ⟨_, rfl⟩
    | some o =>
      cases o with
      | none => exact absurd ho (hn e (by simp))
      | some s =>
        simp only
        by_cases hs : strip s = strip ins
        · rw [if_pos hs]; exact ⟨_, rfl⟩
        · rw [if_neg hs]; exact ⟨_, rfl⟩

theorem findBackanno_some : ∀ (n : List Elem) (i : Nat), findBackanno n = some i → i < n.length := by
  intro n
  induction n with
  | nil => intro i h; simp [findBackanno] at h
  | cons e es ih =>
    intro i h
    have step : (findBackanno es).map (· + 1) = some i → i < (e :: es).length := by
      intro h
      cases hf : findBackanno es with
      | none => rw [hf] at h; cases h
      | some j =>
        rw [hf] at h
        simp only [Option.map_some, Option.some.injEq] at h
        have := ih j hf
        simp; omega
    unfold findBackanno at h
    split at h
    · split at h
      · simp only [Option.some.injEq] at h
        subst h; simp
      · exact step h
    · exact step h

theorem withNewline_strip (s : Str) : strip (withNewline s) = strip s := by
  unfold withNewline
  split
  · rfl
  · have h1 : isSpace '\n' = true := by decide
    unfold strip lstrip rstrip
    by_cases hs : s.dropWhile isSpace = []
    · have hall : ∀ c ∈ s, isSpace c = true := by
        intro c hc
        by_contra hh
        have : ∀ (l : Str), c ∈ l → l.dropWhile isSpace ≠ [] := by
          intro l
          induction l with
          | nil => simp
          | cons x l ih =>
            intro hm
            rw [List.dropWhile_cons]
            split
            · rename_i hx
              rcases List.mem_cons.mp hm with rfl | hm
              · exact absurd hx hh
              · exact ih hm
            · simp
        exact this s hc hs
      rw [Lemmas.PyStr.dropWhile_all _ _ _ hall, hs]
      simp [h1]
    · have : (s ++ ['\n']).dropWhile isSpace = s.dropWhile isSpace ++ ['\n'] := by
        clear * - hs
        induction s with
        | nil => simp at hs
        | cons x s ih =>
          rw [List.cons_append, List.dropWhile_cons, List.dropWhile_cons] at *
          split
          · rename_i hx
            rw [if_pos hx] at hs
            exact ih hs
          · simp
      rw [this, List.reverse_append]
      simp [h1]

/-! ### C28 -/

/-- What add_instruction does, in every case in which it does not raise. -/
theorem add_cases (ed ed' : Ed) (s : Str) (h : addInstruction ed s = .ok ed') :
    ed.perm ≠ .deny ∧ ∃ cmd, lineCommand (withNewline s) = some cmd ∧
    ((IsAnalysis (withNewline s) ∧ ∃ a e b t, ed.netlist = a ++ e :: b ∧ e.obj = some (some t) ∧ IsAnalysis t ∧ analysesOf a = [] ∧
        ed'.netlist = a ++ .prim (withNewline s) :: b) ∨
      ((IsAnalysis (withNewline s) → analysesOf ed.netlist = []) ∧ (∃ t ∈ lines ed.netlist, strip t = strip s) ∧ ed' = ed) ∨
      ((IsAnalysis (withNewline s) → analysesOf ed.netlist = []) ∧ (∀ t ∈ lines ed.netlist, strip t ≠ strip s) ∧
        ∃ a b, ed.netlist = a ++ b ∧ a.length = (findBackanno ed.netlist).getD (ed.netlist.length - 1) ∧
          ed'.netlist = a ++ classFor (withNewline s) cmd :: b)) := by
  unfold addInstruction at h
  split at h
  · cases h
  · rename_i hp
    refine ⟨hp, ?_⟩
    simp only at h
    cases hc : lineCommand (withNewline s) with
    | none => rw [hc] at h; cases h
    | some cmd =>
      refine ⟨cmd, rfl, ?_⟩
      rw [hc] at h
      simp only [isUnique_command _ _ hc] at h
      have hAn : IsAnalysis (withNewline s) ↔ uniqueCommands.contains cmd = true := by
        rw [← isUnique_iff]; unfold isUnique; rw [hc]; simp
      have tail : (IsAnalysis (withNewline s) → analysesOf ed.netlist = []) →
          (if (!uniqueCommands.contains cmd && decide (cmd = ".PARAM".toList)) = true then Except.error Err.runtime
            else match findText (withNewline s) ed.netlist with
              | .error e => .error e
              | .ok (some _) => .ok ed
              | .ok none => .ok ({ ed with netlist := insertAt ((findBackanno ed.netlist).getD (ed.netlist.length - 1)) (classFor (withNewline s) cmd) ed.netlist }.journal (strip (withNewline s)) .addInstruction)) = .ok ed' →
          ((IsAnalysis (withNewline s) → analysesOf ed.netlist = []) ∧ (∃ t ∈ lines ed.netlist, strip t = strip s) ∧ ed' = ed) ∨
          ((IsAnalysis (withNewline s) → analysesOf ed.netlist = []) ∧ (∀ t ∈ lines ed.netlist, strip t ≠ strip s) ∧
            ∃ a b, ed.netlist = a ++ b ∧ a.length = (findBackanno ed.netlist).getD (ed.netlist.length - 1) ∧
              ed'.netlist = a ++ classFor (withNewline s) cmd :: b) := by
        intro hz h
        split at h
        · cases h
        · cases hf : findText (withNewline s) ed.netlist with
          | error e => rw [hf] at h; cases h
          | ok r =>
            rw [hf] at h
            cases r with
            | some i =>
              left
              simp only [Except.ok.injEq] at h
              obtain ⟨a, e, b, t, hn, _, ho, ht, _⟩ := findText_some _ _ _ hf
              refine ⟨hz, ⟨t, ?_, by rw [ht, withNewline_strip]⟩, h.symm⟩
              rw [hn]; simp [lines, ho]
            | none =>
              right
              simp only [Except.ok.injEq] at h
              refine ⟨hz, ?_, ed.netlist.take ((findBackanno ed.netlist).getD (ed.netlist.length - 1)), ed.netlist.drop ((findBackanno ed.netlist).getD (ed.netlist.length - 1)), by simp, ?_, ?_⟩
              · intro t ht
                rw [← withNewline_strip s]
                exact findText_none _ _ hf t ht
              · rw [List.length_take]
                apply Nat.min_eq_left
                cases hb : findBackanno ed.netlist with
                | none => simp
                | some i => simpa using Nat.le_of_lt (findBackanno_some _ _ hb)
              · rw [← h, journal_netlist]; rfl
      by_cases hu : uniqueCommands.contains cmd = true
      · rw [if_pos hu] at h
        cases hf : findUnique ed.netlist with
        | error e => rw [hf] at h; cases h
        | ok r =>
          rw [hf] at h
          cases r with
          | some i =>
            left
            simp only [Except.ok.injEq] at h
            obtain ⟨a, e, b, t, hn, hl, ho, ht, hz⟩ := findUnique_some _ _ hf
            refine ⟨hAn.mpr hu, a, e, b, t, hn, ho, ht, hz, ?_⟩
            rw [← h, journal_netlist]
            simp [hn, ← hl]
          | none =>
            right
            exact tail (fun _ => findUnique_none _ hf) h
      · rw [if_neg hu] at h
        right
        exact tail (fun hh => absurd (hAn.mp hh) hu) h

theorem remove_cases (ed ed' : Ed) (s : Str) (r : Bool) (h : removeInstruction ed s = .ok (ed', r)) :
    ed.perm ≠ .deny ∧ ((r = false ∧ ed' = ed ∧ ∀ t ∈ lines ed.netlist, strip t ≠ strip s) ∨
      (r = true ∧ ∃ a e b t, ed.netlist = a ++ e :: b ∧ e.obj = some (some t) ∧ strip t = strip s ∧
        (∀ t ∈ lines a, strip t ≠ strip s) ∧ ed'.netlist = a ++ b)) := by
  unfold removeInstruction at h
  split at h
  · cases h
  · rename_i hp
    refine ⟨hp, ?_⟩
    cases hf : findText s ed.netlist with
    | error e => rw [hf] at h; cases h
    | ok o =>
      rw [hf] at h
      cases o with
      | none =>
        simp only [Except.ok.injEq, Prod.mk.injEq] at h
        exact Or.inl ⟨h.2.symm, h.1.symm, findText_none _ _ hf⟩
      | some i =>
        simp only [Except.ok.injEq, Prod.mk.injEq] at h
        obtain ⟨a, e, b, t, hn, hl, ho, ht, hz⟩ := findText_some _ _ _ hf
        refine Or.inr ⟨h.2.symm, a, e, b, t, hn, ho, ht, hz, ?_⟩
        rw [← h.1, journal_netlist]
        simp only [hn, ← hl]
        clear * -
        induction a with
        | nil => rfl
        | cons x a ih => simp [ih]

theorem foldl_journal (l : List Str) (ed : Ed) (k : UpdateType) :
    (l.foldl (fun e s => e.journal (strip s) k) ed).netlist = ed.netlist := by
  induction l generalizing ed with
  | nil => rfl
  | cons s l ih => rw [List.foldl_cons, ih, journal_netlist]

/-- An element matched by a pattern: a string or the text of a Primitive. -/
def matched (p : Str → Bool) (e : Elem) : Bool := match e.str with | some s => p s | none => false

theorem dropMatching_eq (p : Str → Bool) (n : List Elem) : (dropMatching p n).1 = n.filter (fun e => !matched p e) ∧
    (dropMatching p n).2 = (n.filter (matched p)).filterMap Elem.str := by
  induction n with
  | nil => simp [dropMatching]
  | cons e es ih =>
    unfold dropMatching
    cases hs : e.str with
    | none =>
      have : matched p e = false := by simp [matched, hs]
      simp [this, ih]
    | some s =>
      by_cases hp : p s = true
      · have : matched p e = true := by simp [matched, hs, hp]
        simp [hp, this, ih, hs]
      · have : matched p e = false := by simp [matched, hs, hp]
        simp [hp, this, ih]

theorem removeX_cases (ed ed' : Ed) (p : Str → Bool) (r : Bool) (h : removeX ed p = .ok (ed', r)) :
    ed.perm ≠ .deny ∧ ed'.netlist = ed.netlist.filter (fun e => !matched p e) ∧ (r = true ↔ ∃ e ∈ ed.netlist, matched p e = true) := by
  unfold removeX at h
  split at h
  · cases h
  · rename_i hp
    refine ⟨hp, ?_⟩
    simp only [Except.ok.injEq, Prod.mk.injEq] at h
    obtain ⟨h1, h2⟩ := h
    refine ⟨by rw [← h1, foldl_journal]; exact (dropMatching_eq p _).1, ?_⟩
    rw [← h2, (dropMatching_eq p _).2]
    simp only [Bool.not_eq_true', List.isEmpty_eq_false_iff]
    constructor
    · intro hne
      obtain ⟨s, hs⟩ := List.exists_mem_of_ne_nil _ hne
      obtain ⟨e, he, _⟩ := List.mem_filterMap.mp hs
      obtain ⟨h3, h4⟩ := List.mem_filter.mp he
      exact ⟨e, h3, h4⟩
    · rintro ⟨e, he, hm⟩ hnil
      cases hs : e.str with
      | none => simp [matched, hs] at hm
      | some s =>
        have : s ∈ (ed.netlist.filter (matched p)).filterMap Elem.str :=
          List.mem_filterMap.mpr ⟨e, List.mem_filter.mpr ⟨he, hm⟩, hs⟩
        rw [hnil] at this
        simp at this

theorem classFor_lines (s cmd : Str) : lines [classFor s cmd] = [s] ∨ lines [classFor s cmd] = [] := by
  unfold classFor
  split_ifs <;> simp [lines, Elem.obj]

theorem analyses_class (s cmd : Str) (h : lineCommand s = some cmd) :
    analysesOf [classFor s cmd] = if IsAnalysis s then [s] else [] := by
  by_cases ha : IsAnalysis s
  · rw [if_pos ha]
    have hu : cmd ∈ uniqueCommands := by
      have := (isUnique_iff s).mpr ha
      unfold isUnique at this
      rw [h] at this
      simpa using this
    have : classFor s cmd = .prim s := by
      unfold classFor
      have key : ∀ c ∈ uniqueCommands, c ≠ ".CONTROL".toList ∧ ¬ (".INC".toList.isPrefixOf c = true) ∧ ¬ (c.length = 1 ∧ ∀ x ∈ c, x ∈ validPrefixes) ∧ c.head? = some '.' := by decide
      obtain ⟨k1, k2, k3, k4⟩ := key cmd hu
      rw [if_neg k1, if_neg k2, if_neg k3, if_pos k4]
    rw [this]
    simp [analysesOf, lines, Elem.obj, ha]
  · rw [if_neg ha]
    unfold analysesOf
    rcases classFor_lines s cmd with h | h <;> simp [h, ha]

/-- C28, one step: no call makes a second analysis directive appear, and a directive that appears is the one given. -/
theorem step_analyses (ed : Ed) (op : Op) (cur : Option Str) (h : analysesOf ed.netlist = [] ∨ ∃ a, analysesOf ed.netlist = [a] ∧ cur = some a) :
    let cur' := match op with
      | .add s => (match addInstruction ed s with | .ok _ => if IsAnalysis (withNewline s) then some (withNewline s) else cur | .error _ => cur)
      | _ => cur
    analysesOf (apply ed op).netlist = [] ∨ ∃ a, analysesOf (apply ed op).netlist = [a] ∧ cur' = some a := by
  have sublist : ∀ n : List Elem, n.Sublist ed.netlist → analysesOf n = [] ∨ ∃ a, analysesOf n = [a] ∧ cur = some a := by
    intro n hn
    have hs : (analysesOf n).Sublist (analysesOf ed.netlist) := (hn.filterMap _).filter _
    rcases h with h | ⟨a, h, hc⟩
    · rw [h] at hs
      left; exact List.eq_nil_of_sublist_nil hs
    · rw [h] at hs
      rcases List.sublist_singleton.mp hs with hs | hs
      · left; exact hs
      · right; exact ⟨a, hs, hc⟩
  cases op with
  | add s =>
    cases hr : addInstruction ed s with
    | error e =>
      simp only [apply, hr]
      exact h
    | ok ed' =>
      simp only [apply, hr]
      obtain ⟨_, cmd, hc, hh⟩ := add_cases ed ed' s hr
      rcases hh with ⟨ha, a, e, b, t, hn, ho, ht, hz, hn'⟩ | ⟨hz, _, rfl⟩ | ⟨hz, _, a, b, hn, _, hn'⟩
      · right
        refine ⟨withNewline s, ?_, by rw [if_pos ha]⟩
        have he : analysesOf [e] = [t] := by simp [analysesOf, lines, ho, ht]
        have hp : analysesOf [Elem.prim (withNewline s)] = [withNewline s] := by simp [analysesOf, lines, Elem.obj, ha]
        rw [hn, analyses_append, analyses_cons, hz, he] at h
        have hb : analysesOf b = [] := by
          rcases h with h | ⟨x, h, _⟩
          · simp at h
          · simpa using (List.cons.inj h).2
        rw [hn', analyses_append, analyses_cons, hz, hp, hb]
        rfl
      · by_cases ha : IsAnalysis (withNewline s)
        · left; exact hz ha
        · rw [if_neg ha]; exact h
      · by_cases ha : IsAnalysis (withNewline s)
        · have h0 := hz ha
          rw [hn, analyses_append, List.append_eq_nil_iff] at h0
          right
          refine ⟨withNewline s, ?_, by rw [if_pos ha]⟩
          rw [hn', analyses_append, analyses_cons, h0.1, h0.2, analyses_class _ _ hc, if_pos ha]
          rfl
        · rw [if_neg ha, hn', analyses_append, analyses_cons, analyses_class _ _ hc, if_neg ha]
          rw [hn, analyses_append] at h
          simpa using h
  | remove s =>
    cases hr : removeInstruction ed s with
    | error e => simp only [apply, hr]; exact h
    | ok r =>
      obtain ⟨ed', r⟩ := r
      simp only [apply, hr]
      obtain ⟨_, hh⟩ := remove_cases ed ed' s r hr
      rcases hh with ⟨_, rfl, _⟩ | ⟨_, a, e, b, t, hn, _, _, _, hn'⟩
      · exact h
      · apply sublist
        rw [hn', hn]
        exact List.Sublist.append (List.Sublist.refl _) (List.sublist_cons_self _ _)
  | removeX p =>
    cases hr : removeX ed p with
    | error e => simp only [apply, hr]; exact h
    | ok r =>
      obtain ⟨ed', r⟩ := r
      simp only [apply, hr]
      obtain ⟨_, hn', _⟩ := removeX_cases ed ed' p r hr
      apply sublist
      rw [hn']
      exact List.filter_sublist

/-- C28: starting from a netlist with at most one analysis directive, after any calls of add_instruction,
remove_instruction and remove_Xinstruction there is at most one, and it is the last one added (or the original one when none
was added). -/
theorem C28_at_most_one (ed : Ed) (ops : List Op) (h : (analysesOf ed.netlist).length ≤ 1) :
    (analysesOf (run ed ops).netlist).length ≤ 1 ∧
    ∀ a ∈ analysesOf (run ed ops).netlist, lastAdded ed (analysesOf ed.netlist).head? ops = some a := by
  have main : ∀ (ops : List Op) (ed : Ed) (cur : Option Str), (analysesOf ed.netlist = [] ∨ ∃ a, analysesOf ed.netlist = [a] ∧ cur = some a) →
      (analysesOf (run ed ops).netlist = [] ∨ ∃ a, analysesOf (run ed ops).netlist = [a] ∧ lastAdded ed cur ops = some a) := by
    intro ops
    induction ops with
    | nil => intro ed cur h; exact h
    | cons op ops ih =>
      intro ed cur h
      have := ih _ _ (step_analyses ed op cur h)
      cases op with
      | add s => exact this
      | remove s => exact this
      | removeX p => exact this
  have hstart : analysesOf ed.netlist = [] ∨ ∃ a, analysesOf ed.netlist = [a] ∧ (analysesOf ed.netlist).head? = some a := by
    cases hz : analysesOf ed.netlist with
    | nil => left; rfl
    | cons a l =>
      right
      rw [hz] at h
      have : l = [] := by simpa using h
      subst this
      exact ⟨a, rfl, rfl⟩
  rcases main ops ed _ hstart with hh | ⟨a, hh, hl⟩
  · rw [hh]; simp
  · rw [hh]
    refine ⟨by simp, ?_⟩
    intro x hx
    simp only [List.mem_singleton] at hx
    rw [hx]; exact hl

/-- C28: a successful add_instruction of an analysis directive makes it the only one of the netlist, in the place of the
previous one if there was one. (The third hypothesis excludes lines such as ".tran\x0b" which differ from the directive only
by exotic white space at the end and count as present.) -/
theorem C28_add_replaces (ed ed' : Ed) (s : Str) (h : addInstruction ed s = .ok ed') (ha : IsAnalysis (withNewline s))
    (h1 : (analysesOf ed.netlist).length ≤ 1) (h2 : ∀ t ∈ lines ed.netlist, strip t = strip s → IsAnalysis t) :
    analysesOf ed'.netlist = [withNewline s] ∧
    (∀ a e b t, ed.netlist = a ++ e :: b → e.obj = some (some t) → IsAnalysis t → ed'.netlist = a ++ .prim (withNewline s) :: b) := by
  obtain ⟨_, cmd, hc, hh⟩ := add_cases ed ed' s h
  have hmem : ∀ a e b t, ed.netlist = a ++ e :: b → e.obj = some (some t) → IsAnalysis t → t ∈ analysesOf ed.netlist := by
    intro a e b t hn ho ht
    rw [hn, analyses_append, analyses_cons]
    have : analysesOf [e] = [t] := by simp [analysesOf, lines, ho, ht]
    rw [this]; simp
  rcases hh with ⟨_, a, e, b, t, hn, ho, ht, hz, hn'⟩ | ⟨hz, ⟨t, ht, hst⟩, rfl⟩ | ⟨hz, _, a, b, hn, _, hn'⟩
  · have he : analysesOf [e] = [t] := by simp [analysesOf, lines, ho, ht]
    have hp : analysesOf [Elem.prim (withNewline s)] = [withNewline s] := by simp [analysesOf, lines, Elem.obj, ha]
    have hb : analysesOf b = [] := by
      rw [hn, analyses_append, analyses_cons, hz, he] at h1
      simpa using h1
    constructor
    · rw [hn', analyses_append, analyses_cons, hz, hp, hb]; rfl
    · intro a2 e2 b2 t2 hn2 ho2 ht2
      have he2 : analysesOf [e2] = [t2] := by simp [analysesOf, lines, ho2, ht2]
      -- the analysis line is unique, so the two decompositions are the same
      have key : ∀ (a a2 : List Elem) (b b2 : List Elem), a ++ e :: b = a2 ++ e2 :: b2 → analysesOf a = [] → analysesOf b = [] →
          a = a2 ∧ b = b2 := by
        intro a
        induction a with
        | nil =>
          intro a2 b b2 h _ hb
          cases a2 with
          | nil => simp at h; exact ⟨rfl, h.2⟩
          | cons x a2 =>
            simp at h
            rw [h.2, analyses_append, analyses_cons, he2] at hb
            simp at hb
        | cons x a ih =>
          intro a2 b b2 h ha hb
          rw [analyses_cons, List.append_eq_nil_iff] at ha
          cases a2 with
          | nil =>
            simp at h
            rw [h.1, he2] at ha
            simp at ha
          | cons y a2 =>
            simp at h
            obtain ⟨h1, h2⟩ := ih a2 b b2 h.2 ha.2 hb
            exact ⟨by rw [h.1, h1], h2⟩
      obtain ⟨rfl, rfl⟩ := key a a2 b b2 (by rw [← hn, hn2]) hz hb
      exact hn'
  · exfalso
    have hta := h2 t ht hst
    have : t ∈ analysesOf ed'.netlist := List.mem_filter.mpr ⟨ht, by simpa using hta⟩
    rw [hz ha] at this
    simp at this
  · have h0 := hz ha
    constructor
    · rw [hn, analyses_append, List.append_eq_nil_iff] at h0
      rw [hn', analyses_append, analyses_cons, h0.1, h0.2, analyses_class _ _ hc, if_pos ha]
      rfl
    · intro a2 e2 b2 t2 hn2 ho2 ht2
      have := hmem a2 e2 b2 t2 hn2 ho2 ht2
      rw [h0] at this
      simp at this

/-- C28: on a netlist as loaded from a file an analysis directive can always be added. -/
theorem C28_add_succeeds (ed : Ed) (s : Str) (hp : ed.perm ≠ .deny) (hs : Sound ed.netlist) (ha : IsAnalysis (withNewline s)) :
    ∃ ed', addInstruction ed s = .ok ed' := by
  unfold addInstruction
  rw [if_neg hp]
  have hu := (isUnique_iff _).mpr ha
  cases hc : lineCommand (withNewline s) with
  | none => simp [isUnique, hc] at hu
  | some cmd =>
    simp only [hc, isUnique_command _ _ hc]
    have hcont : uniqueCommands.contains cmd = true := by simpa [isUnique, hc] using hu
    simp only [hcont, if_true]
    obtain ⟨r, hr⟩ := findUnique_sound _ hs
    rw [hr]
    cases r with
    | some i => exact ⟨_, rfl⟩
    | none =>
      simp only [Bool.not_true, Bool.false_and, Bool.false_eq_true, if_false]
      obtain ⟨r, hr⟩ := findText_spec (withNewline s) _ hs.1
      rw [hr]
      cases r <;> exact ⟨_, rfl⟩

/-! Concrete netlists. -/

def demo : Ed := ⟨.inform, [.text "* title\n".toList, .comp (some "R1 a b 1k\n".toList), .prim ".tran 1m\n".toList,
  .prim ".backanno\n".toList, .prim ".end\n".toList], []⟩

example : analysesOf demo.netlist = [".tran 1m\n".toList] ∧ Sound demo.netlist := by
  refine ⟨by decide, by decide, by decide⟩
example : (run demo [.add ".ac dec 1 1 10".toList, .add ".op".toList, .remove ".ac dec 1 1 10".toList, .add ".NOISE v(a)".toList]).netlist =
    [.text "* title\n".toList, .comp (some "R1 a b 1k\n".toList), .prim ".op\n".toList, .prim ".NOISE v(a)\n".toList,
      .prim ".backanno\n".toList, .prim ".end\n".toList] := by decide +kernel
example : addInstruction demo ".ac dec 1 1 10".toList = .ok ⟨.inform, [.text "* title\n".toList, .comp (some "R1 a b 1k\n".toList),
    .prim ".ac dec 1 1 10\n".toList, .prim ".backanno\n".toList, .prim ".end\n".toList],
    [("INSTRUCTION".toList, ".ac dec 1 1 10".toList, .updateInstruction)]⟩ := by decide +kernel

/-- C28 holds of the lines of the netlist, but an instruction given with a line break in front of it is taken for a comment,
is not recognised as an analysis directive, and a second one is written to the file. -/
theorem C28_leading_newline_escapes :
    writeLines (run demo [.add "\n.ac dec 1 1 10".toList]).netlist =
      some "* title\nR1 a b 1k\n.tran 1m\n\n.ac dec 1 1 10\n.backanno\n.end\n".toList := by decide +kernel

/-- After an object without text is in the netlist (a component created from values, or a control section added with
add_instruction) an analysis directive cannot be added any more unless one stands before it. -/
theorem C28_blocked_by_textless (a b : List Elem) (e : Elem) (s : Str) (calls : List (Str × Str × UpdateType))
    (ha : Sound a) (hz : analysesOf a = []) (he : e.obj = some none) (hs : IsAnalysis (withNewline s)) :
    addInstruction ⟨.inform, a ++ e :: b, calls⟩ s = .error .syntaxErr := by
  have hf : ∀ a : List Elem, Sound a → analysesOf a = [] → findUnique (a ++ e :: b) = .error .syntaxErr := by
    intro a
    induction a with
    | nil => intro _ _; rw [List.nil_append]; unfold findUnique; rw [he]
    | cons x a ih =>
      intro ha hz
      rw [analyses_cons, List.append_eq_nil_iff] at hz
      have := ih ⟨fun y hy => ha.1 y (by simp [hy]), fun t ht => ha.2 t (by rw [lines_cons]; simp [ht])⟩ hz.2
      rw [List.cons_append]
      unfold findUnique
      rw [this]
      cases ho : x.obj with
      | none => rfl
      | some o =>
        cases o with
        | none => rfl
        | some t =>
          simp only
          cases hu : isUnique t with
          | none => rfl
          | some u =>
            cases u with
            | false => rfl
            | true =>
              have h1 := (isUnique_iff t).mp hu
              have : analysesOf [x] = [t] := by simp [analysesOf, lines, ho, h1]
              rw [this] at hz
              simp at hz
  unfold addInstruction
  rw [if_neg (by simp)]
  have hu := (isUnique_iff _).mpr hs
  cases hc : lineCommand (withNewline s) with
  | none => simp [isUnique, hc] at hu
  | some cmd =>
    simp only [hc, isUnique_command _ _ hc]
    have hcont : uniqueCommands.contains cmd = true := by simpa [isUnique, hc] using hu
    simp only [hcont, if_true, hf a ha hz]

example : addInstruction ⟨.inform, [.text "* t\n".toList, .comp none, .prim ".end\n".toList], []⟩ ".tran 1".toList = .error .syntaxErr := by
  decide +kernel

/-! ### C29 -/

/-- C29: adding an instruction that is already there (apart from the white space around it) changes nothing at all. -/
theorem C29_add_present (ed : Ed) (s cmd : Str) (hp : ed.perm ≠ .deny) (hn : ∀ e ∈ ed.netlist, e.obj ≠ some none)
    (hc : lineCommand (withNewline s) = some cmd) (h1 : cmd ≠ ".PARAM".toList) (h2 : ¬ IsAnalysis (withNewline s))
    (t : Str) (ht : t ∈ lines ed.netlist) (hts : strip t = strip s) : addInstruction ed s = .ok ed := by
  have hun : uniqueCommands.contains cmd = false := by
    by_contra hh
    exact h2 ((isUnique_iff _).mp (by unfold isUnique; rw [hc]; simpa using hh))
  unfold addInstruction
  rw [if_neg hp]
  simp only [hc, isUnique_command _ _ hc, hun]
  simp only [Bool.false_eq_true, if_false, Bool.not_false, Bool.true_and, decide_eq_true_eq, if_neg h1]
  obtain ⟨r, hr⟩ := findText_spec (withNewline s) _ hn
  rw [hr]
  cases r with
  | some i => rfl
  | none => exact absurd (by rw [hts, withNewline_strip]) (findText_none _ _ hr t ht)

/-- C29: a new instruction is inserted somewhere as one element, all others keep their order. -/
theorem C29_add_new (ed : Ed) (s cmd : Str) (hp : ed.perm ≠ .deny) (hn : ∀ e ∈ ed.netlist, e.obj ≠ some none)
    (hc : lineCommand (withNewline s) = some cmd) (h1 : cmd ≠ ".PARAM".toList) (h2 : ¬ IsAnalysis (withNewline s))
    (hnew : ∀ t ∈ lines ed.netlist, strip t ≠ strip s) :
    ∃ ed' a b, addInstruction ed s = .ok ed' ∧ ed.netlist = a ++ b ∧ ed'.netlist = a ++ classFor (withNewline s) cmd :: b ∧
      ed'.perm = ed.perm := by
  have hun : uniqueCommands.contains cmd = false := by
    by_contra hh
    exact h2 ((isUnique_iff _).mp (by unfold isUnique; rw [hc]; simpa using hh))
  refine ⟨({ ed with netlist := insertAt ((findBackanno ed.netlist).getD (ed.netlist.length - 1)) (classFor (withNewline s) cmd) ed.netlist }.journal (strip (withNewline s)) .addInstruction), ed.netlist.take ((findBackanno ed.netlist).getD (ed.netlist.length - 1)), ed.netlist.drop ((findBackanno ed.netlist).getD (ed.netlist.length - 1)), ?_, by simp, ?_, ?_⟩
  · unfold addInstruction
    rw [if_neg hp]
    simp only [hc, isUnique_command _ _ hc, hun]
    simp only [Bool.false_eq_true, if_false, Bool.not_false, Bool.true_and, decide_eq_true_eq, if_neg h1]
    obtain ⟨r, hr⟩ := findText_spec (withNewline s) _ hn
    rw [hr]
    cases r with
    | some i =>
      obtain ⟨a, e, b, t, hn, _, ho, ht, _⟩ := findText_some _ _ _ hr
      exact absurd (by rw [ht, withNewline_strip]) (hnew t (by rw [hn]; simp [lines, ho]))
    | none => rfl
  · rw [journal_netlist]; rfl
  · rw [journal_perm]

/-- C29: adding a directive, a component line or an include that is not there yet and removing it again gives back the
netlist, whatever the white space around the text given to remove_instruction. -/
theorem C29_add_remove (ed : Ed) (s s' cmd : Str) (hp : ed.perm ≠ .deny) (hn : ∀ e ∈ ed.netlist, e.obj ≠ some none)
    (hc : lineCommand (withNewline s) = some cmd) (h1 : cmd ≠ ".PARAM".toList) (h2 : ¬ IsAnalysis (withNewline s))
    (h3 : cmd ≠ ".CONTROL".toList) (h4 : cmd ≠ ['*']) (h5 : cmd ≠ ['+'])
    (hnew : ∀ t ∈ lines ed.netlist, strip t ≠ strip s) (hs' : strip s' = strip s) :
    ∃ ed' ed'', addInstruction ed s = .ok ed' ∧ removeInstruction ed' s' = .ok (ed'', true) ∧ ed''.netlist = ed.netlist := by
  obtain ⟨ed', a, b, hadd, hab, hn', hperm⟩ := C29_add_new ed s cmd hp hn hc h1 h2 hnew
  have hobj : (classFor (withNewline s) cmd).obj = some (some (withNewline s)) := by
    unfold classFor
    split_ifs with k1 k2 k3 k4
    · exact absurd k1 h3
    · rfl
    · rfl
    · rfl
    · exfalso
      rcases lineCommand_cases _ _ hc with ⟨_, w, _, _, _, _, _, rfl⟩ | ⟨hl, _, _, x, _, _, _, _, hx⟩
      · apply k4
        rw [List.map_cons, List.head?_cons]; rfl
      · rcases hx with ⟨rfl, hv⟩ | ⟨rfl, _⟩ | ⟨rfl, _⟩
        · apply k3
          exact ⟨rfl, by simpa using hv⟩
        · exact h5 rfl
        · exact h4 rfl
  have hfind : findText s' ed'.netlist = .ok (some a.length) := by
    obtain ⟨r, hr⟩ := findText_spec s' ed'.netlist (by
      rw [hn']
      intro e he
      rcases List.mem_append.mp he with he | he
      · exact hn e (by rw [hab]; simp [he])
      · rcases List.mem_cons.mp he with rfl | he
        · rw [hobj]; simp
        · exact hn e (by rw [hab]; simp [he]))
    cases r with
    | none =>
      exact absurd (by rw [withNewline_strip, hs']) (findText_none _ _ hr (withNewline s) (by rw [hn']; simp [lines, hobj]))
    | some i =>
      obtain ⟨a2, e2, b2, t2, hn2, hl2, ho2, ht2, hz2⟩ := findText_some _ _ _ hr
      rw [hr, ← hl2]
      have key : ∀ (a a2 b b2 : List Elem), a ++ classFor (withNewline s) cmd :: b = a2 ++ e2 :: b2 →
          (∀ t ∈ lines a, strip t ≠ strip s) → (∀ t ∈ lines a2, strip t ≠ strip s) → a.length = a2.length := by
        intro a
        induction a with
        | nil =>
          intro a2 b b2 h _ h2
          cases a2 with
          | nil => rfl
          | cons x a2 =>
            simp at h
            exact absurd (withNewline_strip s) (h2 (withNewline s) (by rw [lines_cons, ← h.1]; simp [lines, hobj]))
        | cons x a ih =>
          intro a2 b b2 h h1 h2
          cases a2 with
          | nil =>
            simp at h
            exact absurd (by rw [ht2, hs']) (h1 t2 (by rw [h.1]; simp [lines, ho2]))
          | cons y a2 =>
            simp at h
            have := ih a2 b b2 h.2 (fun t ht => h1 t (by rw [lines_cons]; simp [ht])) (fun t ht => h2 t (by rw [lines_cons]; simp [ht]))
            simp [this]
      rw [key a a2 b b2 (by rw [← hn', hn2]) (fun t ht => hnew t (by rw [hab, lines_append]; simp [ht])) (by rw [← hs']; exact hz2)]
  refine ⟨ed', ({ ed' with netlist := ed'.netlist.eraseIdx a.length }.journal (logText s') .deleteInstruction), hadd, ?_, ?_⟩
  · unfold removeInstruction
    rw [if_neg (by rw [hperm]; exact hp), hfind]
  · rw [journal_netlist]
    simp only [hn', hab]
    clear * -
    induction a with
    | nil => rfl
    | cons x a ih => simp [ih]

example : ∃ ed' ed'', addInstruction demo ".options gmin=1".toList = .ok ed' ∧ removeInstruction ed' "  .options gmin=1".toList = .ok (ed'', true) ∧
    ed''.netlist = demo.netlist :=
  C29_add_remove demo _ _ ".OPTIONS".toList (by decide) (by decide) (by decide) (by decide) (by decide) (by decide) (by decide) (by decide) (by decide) (by decide)

/-- C29: remove_instruction removes the first element with this text and nothing else; if there is none it returns False
and changes nothing. -/
theorem C29_remove_first (ed : Ed) (s : Str) (hp : ed.perm ≠ .deny) (hn : ∀ e ∈ ed.netlist, e.obj ≠ some none) :
    ((∀ t ∈ lines ed.netlist, strip t ≠ strip s) ∧ removeInstruction ed s = .ok (ed, false)) ∨
    (∃ ed' a e b t, ed.netlist = a ++ e :: b ∧ e.obj = some (some t) ∧ strip t = strip s ∧ (∀ u ∈ lines a, strip u ≠ strip s) ∧
      removeInstruction ed s = .ok (ed', true) ∧ ed'.netlist = a ++ b) := by
  obtain ⟨r, hr⟩ := findText_spec s ed.netlist hn
  have hrem : ∃ x, removeInstruction ed s = .ok x := by
    unfold removeInstruction
    rw [if_neg hp, hr]
    cases r <;> exact ⟨_, rfl⟩
  obtain ⟨⟨ed', b⟩, hx⟩ := hrem
  obtain ⟨_, hh⟩ := remove_cases ed ed' s b hx
  rcases hh with ⟨rfl, rfl, hz⟩ | ⟨rfl, a, e, c, t, h1, h2, h3, h4, h5⟩
  · exact Or.inl ⟨hz, hx⟩
  · exact Or.inr ⟨ed', a, e, c, t, h1, h2, h3, h4, hx, h5⟩

/-- C29: remove_Xinstruction removes exactly the elements whose text matches, comments and components included, and
returns whether there was one. -/
theorem C29_removeX (ed : Ed) (p : Str → Bool) (hp : ed.perm ≠ .deny) :
    ∃ ed' r, removeX ed p = .ok (ed', r) ∧ ed'.netlist = ed.netlist.filter (fun e => !matched p e) ∧
      (r = true ↔ ∃ e ∈ ed.netlist, matched p e = true) := by
  have : ∃ x, removeX ed p = .ok x := by unfold removeX; rw [if_neg hp]; exact ⟨_, rfl⟩
  obtain ⟨⟨ed', r⟩, hx⟩ := this
  exact ⟨ed', r, hx, (removeX_cases ed ed' p r hx).2⟩

/-- C29 fails for comments: they are inserted as strings, which remove_instruction does not look at. -/
theorem C29_comment_not_removable : removeInstruction (run demo [.add "; note".toList]) "; note".toList = .ok (run demo [.add "; note".toList], false) ∧
    (run demo [.add "; note".toList]).netlist.length = 6 := by decide +kernel

/-- C29 fails for control sections: the text is lost (obj is None), the netlist cannot be written any more, and both
add_instruction and remove_instruction raise from then on. -/
theorem C29_control_section_breaks_editor (ed : Ed) (s : Str) (hn : Sound ed.netlist) (hp : ed.perm ≠ .deny)
    (hc : lineCommand (withNewline s) = some ".CONTROL".toList) (hnew : ∀ t ∈ lines ed.netlist, strip t ≠ strip s) :
    ∃ ed', addInstruction ed s = .ok ed' ∧ writeLines ed'.netlist = none ∧
      ∃ a b, ed'.netlist = a ++ Elem.ctrl none :: b ∧ ed.netlist = a ++ b ∧
        ∀ t, (∀ u ∈ lines a, strip u ≠ strip t) → removeInstruction ed' t = .error .attribute := by
  have h2 : ¬ IsAnalysis (withNewline s) := by
    rw [← isUnique_iff]; unfold isUnique; rw [hc]; decide
  obtain ⟨ed', a, b, hadd, hab, hn', hperm⟩ := C29_add_new ed s _ hp hn.1 hc (by decide) h2 hnew
  have hcl : classFor (withNewline s) ".CONTROL".toList = .ctrl none := by unfold classFor; rw [if_pos rfl]
  rw [hcl] at hn'
  refine ⟨ed', hadd, ?_, a, b, hn', hab, ?_⟩
  · rw [hn']
    clear * -
    induction a with
    | nil => rfl
    | cons x a ih =>
      rw [List.cons_append]
      unfold writeLines
      rw [ih]
      cases writeElem x <;> rfl
  · intro t ht
    have hf : ∀ a : List Elem, Sound a → (∀ u ∈ lines a, strip u ≠ strip t) → findText t (a ++ Elem.ctrl none :: b) = .error .attribute := by
      intro a
      induction a with
      | nil => intro _ _; rfl
      | cons x a ih =>
        intro ha hz
        have := ih ⟨fun y hy => ha.1 y (by simp [hy]), fun t ht => ha.2 t (by rw [lines_cons]; simp [ht])⟩
          (fun u hu => hz u (by rw [lines_cons]; simp [hu]))
        rw [List.cons_append]
        unfold findText
        rw [this]
        cases ho : x.obj with
        | none => rfl
        | some o =>
          cases o with
          | none => rfl
          | some u =>
            simp only
            rw [if_neg (hz u (by simp [lines, ho]))]
    unfold removeInstruction
    rw [if_neg (by rw [hperm]; exact hp), hn', hf a ⟨fun e he => hn.1 e (by rw [hab]; simp [he]),
      fun u hu => hn.2 u (by rw [hab, lines_append]; simp [hu])⟩ ht]

example : ∃ ed', addInstruction demo ".control\nrun\n.endc".toList = .ok ed' ∧ writeLines ed'.netlist = none :=
  (C29_control_section_breaks_editor demo ".control\nrun\n.endc".toList (by constructor <;> decide) (by decide) (by decide) (by decide)).imp
    (fun _ h => ⟨h.1, h.2.1⟩)

/-! ### C30 -/

/-- The line that ends the netlist. -/
def IsEnd (e : Elem) : Prop := ∃ s, e = .prim s ∧ lower (strip s) = ".end".toList

/-- C30, what can be said of the unchanged code: a new instruction stands before the .END line when nothing follows the
.END line, or when a .backanno line stands before it. -/
theorem C30_add_before_end (ed ed' : Ed) (s : Str) (pre post : List Elem) (e : Elem)
    (hn : ed.netlist = pre ++ e :: post) (hpre : ∀ x ∈ pre, ¬ IsEnd x)
    (hcase : post = [] ∨ ∃ i, findBackanno pre = some i)
    (h : addInstruction ed s = .ok ed') (hnew : ∀ t ∈ lines ed.netlist, strip t ≠ strip s) (h2 : ¬ IsAnalysis (withNewline s)) :
    ∃ a b cmd, pre = a ++ b ∧ ed'.netlist = a ++ classFor (withNewline s) cmd :: b ++ e :: post := by
  obtain ⟨_, cmd, hc, hh⟩ := add_cases ed ed' s h
  rcases hh with ⟨ha, _⟩ | ⟨_, ⟨t, ht, hts⟩, _⟩ | ⟨_, _, a, b, hab, hlen, hn'⟩
  · exact absurd ha h2
  · exact absurd hts (hnew t ht)
  · have hle : a.length ≤ pre.length := by
      rcases hcase with rfl | ⟨i, hi⟩
      · rw [hlen]
        cases hb : findBackanno ed.netlist with
        | none => rw [hn]; simp
        | some i =>
          have := findBackanno_some _ _ hb
          rw [hn] at this
          simp at this ⊢
          omega
      · have hi' : findBackanno ed.netlist = some i := by
          rw [hn]
          clear * - hi
          induction pre generalizing i with
          | nil => simp [findBackanno] at hi
          | cons x pre ih =>
            have step : ∀ r, (findBackanno pre).map (· + 1) = some r → (findBackanno (pre ++ e :: post)).map (· + 1) = some r := by
              intro r hr
              cases hf : findBackanno pre with
              | none => rw [hf] at hr; cases hr
              | some j => rw [ih j hf]; rw [hf] at hr; exact hr
            rw [List.cons_append]
            unfold findBackanno at hi ⊢
            split at hi
            · split at hi
              · rename_i hh; rw [if_pos hh]; exact hi
              · rename_i hh; rw [if_neg hh]; exact step _ hi
            · exact step _ hi
        rw [hlen, hi']
        simpa using Nat.le_of_lt (findBackanno_some _ _ hi)
    have hpre' : pre = a ++ pre.drop a.length ∧ b = pre.drop a.length ++ e :: post := by
      have h1 : (a ++ b).take a.length = a := by simp
      have h2 : (a ++ b).drop a.length = b := by simp
      rw [← hab, hn] at h1 h2
      rw [List.take_append_of_le_length hle] at h1
      rw [List.drop_append_of_le_length hle] at h2
      exact ⟨by conv => lhs; rw [← List.take_append_drop a.length pre, h1], h2.symm⟩
    exact ⟨a, pre.drop a.length, cmd, hpre'.1, by rw [hn', hpre'.2]; simp⟩

example : ∃ a b cmd, [Elem.text "* t\n".toList] = a ++ b ∧
    (run ⟨.inform, [.text "* t\n".toList, .prim ".end\n".toList], []⟩ [.add ".op".toList]).netlist = a ++ classFor ".op\n".toList cmd :: b ++ [.prim ".end\n".toList] :=
  ⟨[.text "* t\n".toList], [], ".OP".toList, rfl, by decide +kernel⟩

/-- C30 is violated: when comment lines follow the .END line (which the loader keeps, spice_file.py 185-189) and there is no
.backanno line, every new instruction ends up after .END, where simulators ignore it. -/
theorem C30_add_after_end (ed ed' : Ed) (s : Str) (pre post : List Elem) (e : Elem)
    (hn : ed.netlist = pre ++ e :: post) (hpost : post ≠ []) (hb : findBackanno ed.netlist = none)
    (h : addInstruction ed s = .ok ed') (hnew : ∀ t ∈ lines ed.netlist, strip t ≠ strip s) (h2 : ¬ IsAnalysis (withNewline s)) :
    ∃ a b cmd, post = a ++ b ∧ ed'.netlist = pre ++ e :: (a ++ classFor (withNewline s) cmd :: b) := by
  obtain ⟨_, cmd, hc, hh⟩ := add_cases ed ed' s h
  rcases hh with ⟨ha, _⟩ | ⟨_, ⟨t, ht, hts⟩, _⟩ | ⟨_, _, a, b, hab, hlen, hn'⟩
  · exact absurd ha h2
  · exact absurd hts (hnew t ht)
  · rw [hb, Option.getD_none, hn] at hlen
    have hpos : 0 < post.length := List.length_pos_iff.mpr hpost
    have hlen' : a.length = pre.length + 1 + (post.length - 1) := by
      rw [hlen]; simp; omega
    have h1 : (a ++ b).take a.length = a := by simp
    have h2 : (a ++ b).drop a.length = b := by simp
    rw [← hab, hn, hlen'] at h1 h2
    rw [show pre ++ e :: post = (pre ++ [e]) ++ post by simp, List.take_append, List.length_append] at h1
    rw [show pre ++ e :: post = (pre ++ [e]) ++ post by simp, List.drop_append, List.length_append] at h2
    simp only [List.length_singleton, Nat.add_sub_cancel_left] at h1 h2
    rw [List.take_of_length_le (by simp)] at h1
    rw [List.drop_eq_nil_of_le (by simp)] at h2
    refine ⟨post.take (post.length - 1), post.drop (post.length - 1), cmd, by simp, ?_⟩
    rw [hn', ← h1, ← h2]
    simp

example : (run ⟨.inform, [.text "* t\n".toList, .prim ".end\n".toList, .text "* made by hand\n".toList], []⟩ [.add ".op".toList]).netlist =
    [.text "* t\n".toList, .prim ".end\n".toList, .prim ".op\n".toList, .text "* made by hand\n".toList] := by decide +kernel

/-- C30, set_parameter: the new .PARAM line stands before the .END line when at most one line follows it. -/
theorem C30_parameter_before_end (pre post : List Elem) (e : Elem) (name value : Str) (h : post.length ≤ 1) :
    ∃ a b, pre = a ++ b ∧ addParameter (pre ++ e :: post) name value = a ++ .prim (paramLine name value) :: b ++ e :: post := by
  unfold addParameter insertAt
  have hlen : (pre ++ e :: post).length - 2 ≤ pre.length := by simp; omega
  refine ⟨pre.take ((pre ++ e :: post).length - 2), pre.drop ((pre ++ e :: post).length - 2), by simp, ?_⟩
  rw [List.take_append_of_le_length hlen, List.drop_append_of_le_length hlen]
  simp

/-- C30 is violated by set_parameter when two or more lines follow .END. -/
theorem C30_parameter_after_end (pre post : List Elem) (e : Elem) (name value : Str) (h : 2 ≤ post.length) :
    ∃ a b, post = a ++ b ∧ addParameter (pre ++ e :: post) name value = pre ++ e :: (a ++ .prim (paramLine name value) :: b) := by
  unfold addParameter insertAt
  have hlen : (pre ++ e :: post).length - 2 = (pre ++ [e]).length + (post.length - 2) := by simp; omega
  refine ⟨post.take (post.length - 2), post.drop (post.length - 2), by simp, ?_⟩
  rw [hlen, show pre ++ e :: post = (pre ++ [e]) ++ post by simp, List.take_append, List.drop_append,
    List.take_of_length_le (Nat.le_add_right _ _), List.drop_eq_nil_of_le (Nat.le_add_right _ _), Nat.add_sub_cancel_left]
  simp

/-- C30 is violated for the smallest netlists: the parameter of a netlist with a title and .END goes before the title, where
SPICE takes it for the title. -/
theorem C30_parameter_becomes_title (t e : Elem) (name value : Str) :
    (addParameter [t, e] name value).head? = some (.prim (paramLine name value)) := rfl

/-- C30 is violated for a blank netlist: its first line has no line terminator, so that the first instruction added (or the
.END line) is written at the end of the title comment and is lost. -/
theorem C30_blank_netlist_loses_line :
    writeLines (run ⟨.inform, blank, []⟩ [.add ".tran 1".toList]).netlist = some "* netlist generated from spicelib.tran 1\n.END\n".toList ∧
    writeLines blank = some "* netlist generated from spicelib.END\n".toList := by decide +kernel

end Props.Netlist
