import Verif.Model.LogRead
import Mathlib.Data.List.Basic
/-
C48, C49, C54: reading step lines, measurement tables and exported waveforms.
-/
namespace Props.LogRead
open Model.LogRead
open Model.LogData (Name Dict lower)

variable {V : Type}

/-! ### C49 -/

/-- A token of a `.step` line: an assignment or something else. -/
inductive Tok where
  | assign (name value : List Char)
  | other (w : List Char)

def Tok.text : Tok → List Char
  | .assign n v => n ++ '=' :: v
  | .other w => w

/-- Tokens do not contain blanks, line ends, or further equal signs. -/
def Tok.Clean : Tok → Prop
  | .assign n v => ∀ c ∈ n ++ v, c ≠ ' ' ∧ c ≠ '=' ∧ c ≠ '\r' ∧ c ≠ '\n'
  | .other w => ∀ c ∈ w, c ≠ ' ' ∧ c ≠ '=' ∧ c ≠ '\r' ∧ c ≠ '\n'

/-- The text of a `.step` line with the given tokens. -/
def lineText (toks : List Tok) (eol : List Char) : List Char :=
  ".step".toList ++ toks.flatMap (fun t => ' ' :: t.text) ++ eol

/-- The values assigned to variable `k` (in lower case) by the tokens, in order. -/
def assigned (conv : List Char → V) (k : Name) (toks : List Tok) : List V :=
  toks.filterMap (fun t => match t with | .assign n v => if lower n = k then some (conv v) else none | .other _ => none)

def hasAssign (toks : List Tok) : Bool := toks.any (fun t => match t with | .assign _ _ => true | .other _ => false)

/-- The column of the step table called `k` (empty if there is none). -/
def column (d : Dict (List V)) (k : Name) : List V := (d.lookup k).getD []

theorem splitOn_clean (sep : Char) : ∀ (w : List Char), (∀ c ∈ w, c ≠ sep) → splitOn sep w = [w] := by
  intro w
  induction w with
  | nil => intro _; rfl
  | cons c w ih =>
    intro h
    rw [splitOn, if_neg (h c (by simp)), ih (fun d hd => h d (by simp [hd]))]

theorem splitOn_cons (sep : Char) : ∀ (w l : List Char), (∀ c ∈ w, c ≠ sep) → splitOn sep (w ++ sep :: l) = w :: splitOn sep l := by
  intro w
  induction w with
  | nil => intro l _; simp [splitOn]
  | cons c w ih =>
    intro l h
    rw [List.cons_append, splitOn, if_neg (h c (by simp)), ih l (fun d hd => h d (by simp [hd]))]

theorem splitOn_words (sep : Char) : ∀ (ws : List (List Char)) (w : List Char), (∀ c ∈ w, c ≠ sep) → (∀ v ∈ ws, ∀ c ∈ v, c ≠ sep) →
    splitOn sep (w ++ ws.flatMap (fun v => sep :: v)) = w :: ws := by
  intro ws
  induction ws with
  | nil => intro w h _; simpa using splitOn_clean sep w h
  | cons v ws ih =>
    intro w h hs
    rw [List.flatMap_cons, List.cons_append, splitOn_cons sep w _ h, ih v (hs v (by simp)) (fun u hu => hs u (by simp [hu]))]

theorem clean_text {t : Tok} (h : t.Clean) : ∀ c ∈ t.text, c ≠ ' ' ∧ c ≠ '\r' ∧ c ≠ '\n' := by
  cases t with
  | other w => exact fun c hc => ⟨(h c hc).1, (h c hc).2.2⟩
  | assign n v =>
    intro c hc
    simp only [Tok.text, List.mem_append, List.mem_cons] at hc
    rcases hc with hc | rfl | hc
    · exact ⟨(h c (by simp [hc])).1, (h c (by simp [hc])).2.2⟩
    · decide
    · exact ⟨(h c (by simp [hc])).1, (h c (by simp [hc])).2.2⟩

theorem column_push (k k' : Name) (v : V) (d : Dict (List V)) :
    column (push k' v d) k = if k = k' then column d k ++ [v] else column d k := by
  induction d with
  | nil =>
    by_cases h : k = k'
    · simp [column, push, h, List.lookup]
    · have : (k == k') = false := by simpa using h
      simp [column, push, h, List.lookup, this]
  | cons e d ih =>
    obtain ⟨a, c⟩ := e
    rw [push]
    by_cases ha : a = k'
    · rw [if_pos ha]
      by_cases h : k = k'
      · simp [column, List.lookup, h, ha]
      · have : (k == a) = false := by simpa [ha] using h
        simp [column, List.lookup, h, this]
    · rw [if_neg ha]
      by_cases hk : k = a
      · have : ¬ k = k' := by rw [hk]; exact ha
        simp [column, List.lookup, hk, ha]
      · have hk' : (k == a) = false := by simpa using hk
        simp only [column, List.lookup, hk'] at ih ⊢
        exact ih

theorem stepTokens_ok (conv : List Char → V) : ∀ (toks : List Tok) (d : Dict (List V)), (∀ t ∈ toks, t.Clean) →
    ∃ d', stepTokens conv (toks.map Tok.text) d = some (d', hasAssign toks) ∧
      ∀ k, column d' k = column d k ++ assigned conv k toks := by
  intro toks
  induction toks with
  | nil => intro d _; exact ⟨d, rfl, by simp [assigned]⟩
  | cons t toks ih =>
    intro d h
    have ht := h t (by simp)
    have hr : ∀ t ∈ toks, t.Clean := fun t ht => h t (by simp [ht])
    cases t with
    | other w =>
      obtain ⟨d', h1, h2⟩ := ih d hr
      refine ⟨d', ?_, ?_⟩
      · have : ¬ '=' ∈ w := fun hm => (ht _ hm).2.1 rfl
        simp only [List.map_cons, Tok.text, stepTokens, this, if_false, h1]
        simp [hasAssign]
      · intro k; rw [h2]; simp [assigned]
    | assign n v =>
      obtain ⟨d', h1, h2⟩ := ih (push (lower n) (conv v) d) hr
      refine ⟨d', ?_, ?_⟩
      · have hn : ∀ c ∈ n, c ≠ '=' := fun c hc => (ht c (by simp [hc])).2.1
        have hv : ∀ c ∈ v, c ≠ '=' := fun c hc => (ht c (by simp [hc])).2.1
        have hsp : splitOn '=' (n ++ '=' :: v) = [n, v] := by rw [splitOn_cons _ _ _ hn, splitOn_clean _ _ hv]
        simp only [List.map_cons, Tok.text, stepTokens, List.mem_append, List.mem_cons, true_or, or_true, if_true, hsp, h1]
        simp [hasAssign]
      · intro k
        rw [h2, column_push]
        by_cases hk : k = lower n
        · simp [assigned, hk]
        · have : ¬ lower n = k := fun h => hk h.symm
          simp [assigned, hk, this]

/-- Line terminators. -/
def Eol (e : List Char) : Prop := e = [] ∨ e = ['\n'] ∨ e = ['\r', '\n']

theorem stripEol_line (body eol : List Char) (hb : ∀ c ∈ body, c ≠ '\r' ∧ c ≠ '\n') (he : Eol eol) :
    stripEol (body ++ eol) = body := by
  have h0 : (body.reverse).dropWhile (fun c => c = '\r' || c = '\n') = body.reverse := by
    cases hr : body.reverse with
    | nil => rfl
    | cons c r =>
      have hc := hb c (by rw [← List.mem_reverse, hr]; simp)
      simp [List.dropWhile, hc.1, hc.2]
  unfold stripEol
  rw [List.reverse_append]
  rcases he with rfl | rfl | rfl
  · simp [h0]
  · simp [h0]
  · simp [h0]

theorem stepLine_ok (conv : List Char → V) (s : Steps V) (toks : List Tok) (eol : List Char) (h : ∀ t ∈ toks, t.Clean)
    (he : Eol eol) :
    ∃ s', stepLine conv s (lineText toks eol) = some s' ∧ s'.count = s.count + (if hasAssign toks then 1 else 0) ∧
      ∀ k, column s'.stepset k = column s.stepset k ++ assigned conv k toks := by
  have hbody : ∀ c ∈ ".step".toList ++ toks.flatMap (fun t => ' ' :: t.text), c ≠ '\r' ∧ c ≠ '\n' := by
    intro c hc
    rcases List.mem_append.mp hc with hc | hc
    · have : ∀ c ∈ ".step".toList, c ≠ '\r' ∧ c ≠ '\n' := by decide
      exact this c hc
    · obtain ⟨t, ht, hc⟩ := List.mem_flatMap.mp hc
      rcases List.mem_cons.mp hc with rfl | hc
      · decide
      · exact (clean_text (h t ht) c hc).2
  obtain ⟨d', h1, h2⟩ := stepTokens_ok conv toks s.stepset h
  have hs : splitOn ' ' (stripEol (lineText toks eol)) = ".step".toList :: toks.map Tok.text := by
    rw [lineText, stripEol_line _ _ hbody he]
    have := splitOn_words ' ' (toks.map Tok.text) ".step".toList (by decide)
      (by intro v hv; obtain ⟨t, ht, rfl⟩ := List.mem_map.mp hv; exact fun c hc => (clean_text (h t ht) c hc).1)
    rw [List.flatMap_map] at this
    exact this
  refine ⟨⟨d', if hasAssign toks then s.count + 1 else s.count⟩, ?_, ?_, h2⟩
  · unfold stepLine
    rw [hs, List.tail_cons, h1]
  · by_cases hA : hasAssign toks <;> simp [hA]

/-- C49: for every sequence of `.step` lines, the step count grows by one for every line with an assignment, and
the column of every variable is extended by the values assigned to it (in any letter case), in file order. -/
theorem C49_step_columns (conv : List Char → V) : ∀ (lines : List (List Tok × List Char)) (s : Steps V),
    (∀ l ∈ lines, (∀ t ∈ l.1, t.Clean) ∧ Eol l.2) →
    ∃ s', stepLines conv s (lines.map (fun l => lineText l.1 l.2)) = some s' ∧
      s'.count = s.count + lines.countP (fun l => hasAssign l.1) ∧
      ∀ k, column s'.stepset k = column s.stepset k ++ lines.flatMap (fun l => assigned conv k l.1) := by
  intro lines
  induction lines with
  | nil => intro s _; exact ⟨s, rfl, by simp, by simp⟩
  | cons l lines ih =>
    intro s h
    obtain ⟨s1, h1, h2, h3⟩ := stepLine_ok conv s l.1 l.2 (h l (by simp)).1 (h l (by simp)).2
    obtain ⟨s2, k1, k2, k3⟩ := ih s1 (fun l hl => h l (by simp [hl]))
    refine ⟨s2, ?_, ?_, ?_⟩
    · simp only [List.map_cons, stepLines, h1, k1]
    · rw [k2, h2, List.countP_cons]; omega
    · intro k; rw [k3, h3]; simp

theorem flatMap_singleton {α β : Type} (f : α → List β) (g : α → β) : ∀ (l : List α), (∀ x ∈ l, f x = [g x]) → l.flatMap f = l.map g := by
  intro l
  induction l with
  | nil => simp
  | cons a l ih => intro h; rw [List.flatMap_cons, h a (by simp), ih (fun x hx => h x (by simp [hx]))]; simp

/-- C49: if every `.step` line of the file assigns the variable `k` exactly once, then its column has one entry per
step, and entry `i` is the value in line `i`. -/
theorem C49_aligned (conv : List Char → V) (lines : List (List Tok × List Char)) (k : Name) (val : List Tok → V)
    (hc : ∀ l ∈ lines, (∀ t ∈ l.1, t.Clean) ∧ Eol l.2) (hk : ∀ l ∈ lines, assigned conv k l.1 = [val l.1]) :
    ∃ s, stepLines conv (Steps.new []) (lines.map (fun l => lineText l.1 l.2)) = some s ∧
      s.count = lines.length ∧ column s.stepset k = lines.map (fun l => val l.1) := by
  obtain ⟨s, h1, h2, h3⟩ := C49_step_columns conv lines (Steps.new []) hc
  refine ⟨s, h1, ?_, ?_⟩
  · rw [h2]
    have : lines.countP (fun l => hasAssign l.1) = lines.length := by
      rw [List.countP_eq_length]
      intro l hl
      have := hk l hl
      rw [hasAssign, List.any_eq_true]
      have hm : val l.1 ∈ assigned conv k l.1 := by rw [this]; simp
      obtain ⟨t, ht, h⟩ := List.mem_filterMap.mp hm
      refine ⟨t, ht, ?_⟩
      cases t with
      | assign => rfl
      | other => simp at h
    simp [this, Steps.new]
  · rw [h3 k, flatMap_singleton _ _ _ hk]; simp [column, Steps.new, List.lookup]

/-- C49 (finding): when the steps are given by the caller (`step_set`, used for .mout files), `step_count` is the number
of step variables, not the number of steps. -/
theorem C49_given_steps_miscounted (k : Name) (vs : List V) : (Steps.new [(k, vs)]).count = 1 := rfl

/-- C49 (QSPICE): the lines must be numbered consecutively from one; then the step count is the number of lines
and every column collects the assigned values in order. Any other numbering raises. -/
theorem C49_qspice_steps (conv : List Char → V) (s : Steps V) (no : Nat) (t0 : Tok) (toks : List Tok)
    (h : ∀ t ∈ t0 :: toks, t.Clean) :
    (no ≠ s.count + 1 → qspiceStep conv s no (t0.text ++ toks.flatMap (fun t => ' ' :: t.text)) = none) ∧
    (no = s.count + 1 → ∃ s', qspiceStep conv s no (t0.text ++ toks.flatMap (fun t => ' ' :: t.text)) = some s' ∧
      s'.count = no ∧ ∀ k, column s'.stepset k = column s.stepset k ++ assigned conv k (t0 :: toks)) := by
  unfold qspiceStep
  refine ⟨fun hn => by rw [if_pos (fun h => hn h.symm)], ?_⟩
  intro hn
  rw [if_neg (by omega)]
  have hbody : ∀ c ∈ t0.text ++ toks.flatMap (fun t => ' ' :: t.text), c ≠ '\r' ∧ c ≠ '\n' := by
    intro c hc
    rcases List.mem_append.mp hc with hc | hc
    · exact (clean_text (h t0 (by simp)) c hc).2
    · obtain ⟨t, ht, hc⟩ := List.mem_flatMap.mp hc
      rcases List.mem_cons.mp hc with rfl | hc
      · decide
      · exact (clean_text (h t (by simp [ht])) c hc).2
  have hst := stripEol_line _ [] hbody (.inl rfl)
  rw [List.append_nil] at hst
  have := splitOn_words ' ' (toks.map Tok.text) t0.text (fun c hc => (clean_text (h t0 (by simp)) c hc).1)
      (by intro v hv; obtain ⟨t, ht, rfl⟩ := List.mem_map.mp hv; exact fun c hc => (clean_text (h t (by simp [ht])) c hc).1)
  rw [List.flatMap_map] at this
  obtain ⟨d', h1, h2⟩ := stepTokens_ok conv (t0 :: toks) s.stepset h
  rw [hst, this]
  rw [List.map_cons] at h1
  rw [h1]
  exact ⟨_, rfl, hn.symm, h2⟩

/-! Concrete cases. -/
example : stepLines id (Steps.new []) [".step r=1 C=2\n".toList, ".step\n".toList, ".step R=3 c=4".toList] =
    some ⟨[(['r'], [['1'], ['3']]), (['c'], [['2'], ['4']])], 2⟩ := by decide +kernel
example : (stepLines id (Steps.new []) [".step r=1=2".toList]).isNone := by decide +kernel
example : Tok.Clean (.assign ['R'] ['1']) ∧ Eol ['\n'] := ⟨by simp [Tok.Clean], .inr (.inl rfl)⟩

/-! ### C48 -/

/-- The run number and the values of the last recognised step header, if any. -/
def lastStep : List XLine → Name × List Name → Name × List Name
  | [], cur => cur
  | .step run ps :: ls, _ => lastStep ls (run, ps.filterMap (·.2))
  | _ :: ls, cur => lastStep ls cur

def isData : XLine → Bool
  | .data _ => true
  | _ => false

/-- The rows of the written file, i.e. everything but the header. -/
def dataRows (out : List OLine) : List (Name × List Name × Name) :=
  out.filterMap (fun o => match o with | .row r v t => some (r, v, t) | .header _ => none)

def headersOf (out : List OLine) : List (List Name) :=
  out.filterMap (fun o => match o with | .header k => some k | .row _ _ _ => none)

theorem mapM_filterMap {α β : Type} (f : α → Option β) : ∀ (l : List α) (r : List β), l.mapM f = some r → l.filterMap f = r := by
  intro l
  induction l with
  | nil => intro r h; simp at h; simp [h]
  | cons a l ih =>
    intro r h
    rw [List.mapM_cons] at h
    cases ha : f a with
    | none => rw [ha] at h; cases h
    | some b =>
      cases hl : l.mapM f with
      | none => rw [ha, hl] at h; cases h
      | some bs =>
        rw [ha, hl] at h
        simp at h
        subst h
        simp [List.filterMap_cons, ha, ih bs hl]

theorem reformatLoop_spec : ∀ (ls : List XLine) (go : Bool) (run : Name) (vals : List Name) (out : List OLine),
    reformatLoop go run vals ls = some out →
    (∀ pre t post, ls = pre ++ .data t :: post → (dataRows out)[pre.countP isData]? =
      some ((lastStep pre (run, vals)).1, (lastStep pre (run, vals)).2, t)) ∧
    (dataRows out).length = ls.countP isData := by
  intro ls
  induction ls with
  | nil => intro go run vals out h; simp [reformatLoop] at h; subst h; simp [dataRows]
  | cons l ls ih =>
    intro go run vals out h
    cases l with
    | badStep =>
      obtain ⟨h1, h2⟩ := ih go run vals out h
      refine ⟨?_, by simpa [isData, List.countP_cons] using h2⟩
      intro pre t post he
      cases pre with
      | nil => simp at he
      | cons p pre =>
        simp at he
        obtain ⟨rfl, rfl⟩ := he
        simpa [lastStep, isData, List.countP_cons] using h1 pre t post rfl
    | data u =>
      rw [reformatLoop] at h
      cases hr : reformatLoop go run vals ls with
      | none => rw [hr] at h; cases h
      | some o =>
        rw [hr] at h
        simp at h
        subst h
        obtain ⟨h1, h2⟩ := ih go run vals o hr
        refine ⟨?_, by simp [isData, List.countP_cons, dataRows] at h2 ⊢; exact h2⟩
        intro pre t post he
        cases pre with
        | nil => simp at he; obtain ⟨rfl, rfl⟩ := he; simp [dataRows, lastStep]
        | cons p pre =>
          simp at he
          obtain ⟨rfl, rfl⟩ := he
          have := h1 pre t post rfl
          simp only [dataRows] at this ⊢
          simpa [lastStep, isData, List.countP_cons] using this
    | step run' ps =>
      rw [reformatLoop] at h
      cases hm : ps.mapM (·.2) with
      | none => rw [hm] at h; cases h
      | some vals' =>
        cases hr : reformatLoop false run' vals' ls with
        | none => rw [hm] at h; simp only [hr] at h; cases h
        | some o =>
          rw [hm] at h
          simp only [hr, Option.some.injEq] at h
          obtain ⟨h1, h2⟩ := ih false run' vals' o hr
          have hd : dataRows out = dataRows o := by
            subst h; cases go <;> simp [dataRows]
          rw [hd]
          refine ⟨?_, by simpa [isData, List.countP_cons] using h2⟩
          intro pre t post he
          cases pre with
          | nil => simp at he
          | cons p pre =>
            simp at he
            obtain ⟨rfl, rfl⟩ := he
            have := h1 pre t post rfl
            simpa [lastStep, isData, List.countP_cons, mapM_filterMap _ _ _ hm] using this

/-- C48: whenever the conversion succeeds, it writes one row per data line, in the same order, and the row of a data
line carries that line and the run number and values of the last step header above it ("0" and no value above
the first header). -/
theorem C48_rows_tagged_with_their_step (ls : List XLine) (out : List OLine) (h : reformat ls = some out) :
    (dataRows out).length = ls.countP isData ∧
    ∀ pre t post, ls = pre ++ .data t :: post →
      (dataRows out)[pre.countP isData]? =
        some ((lastStep pre (['0'], [])).1, (lastStep pre (['0'], [])).2, t) := by
  obtain ⟨h1, h2⟩ := reformatLoop_spec ls true ['0'] [] out h
  exact ⟨h2, h1⟩

theorem headers_false : ∀ (ls : List XLine) (run : Name) (vals : List Name) (out : List OLine),
    reformatLoop false run vals ls = some out → headersOf out = [] := by
  intro ls
  induction ls with
  | nil => intro run vals out h; simp [reformatLoop] at h; subst h; rfl
  | cons l ls ih =>
    intro run vals out h
    cases l with
    | badStep => exact ih run vals out h
    | data u =>
      rw [reformatLoop] at h
      cases hr : reformatLoop false run vals ls with
      | none => rw [hr] at h; cases h
      | some o => rw [hr] at h; simp at h; subst h; simpa [headersOf] using ih run vals o hr
    | step run' ps =>
      rw [reformatLoop] at h
      cases hm : ps.mapM (·.2) with
      | none => rw [hm] at h; cases h
      | some vals' =>
        rw [hm] at h
        cases hr : reformatLoop false run' vals' ls with
        | none => simp only [hr] at h; cases h
        | some o => simp only [hr] at h; simp at h; subst h; exact ih run' vals' o hr

/-- C48: the titles are written exactly once, with the keys of the first step header, if there is one; a file
without step header gets no titles at all (finding). -/
theorem C48_titles_once (ls : List XLine) (out : List OLine) (h : reformat ls = some out) :
    headersOf out = ((ls.filterMap (fun l => match l with | .step _ ps => some (ps.map (·.1)) | _ => none)).head?).toList := by
  unfold reformat at h
  generalize ['0'] = run at h
  generalize ([] : List Name) = vals at h
  induction ls generalizing run vals out with
  | nil => simp [reformatLoop] at h; subst h; rfl
  | cons l ls ih =>
    cases l with
    | badStep => simpa using ih out run vals h
    | data u =>
      rw [reformatLoop] at h
      cases hr : reformatLoop true run vals ls with
      | none => rw [hr] at h; cases h
      | some o => rw [hr] at h; simp at h; subst h; simpa [headersOf] using ih o run vals hr
    | step run' ps =>
      rw [reformatLoop] at h
      cases hm : ps.mapM (·.2) with
      | none => rw [hm] at h; cases h
      | some vals' =>
        rw [hm] at h
        cases hr : reformatLoop false run' vals' ls with
        | none => simp only [hr] at h; cases h
        | some o =>
          simp only [hr] at h
          simp at h
          subst h
          have := headers_false ls run' vals' o hr
          simp only [headersOf] at this ⊢
          simp [this]

/-- C48: the conversion fails exactly when a step header has a part without `=`. -/
theorem C48_fails_iff (ls : List XLine) :
    reformat ls = none ↔ ∃ run ps k, XLine.step run ps ∈ ls ∧ (k, none) ∈ ps := by
  unfold reformat
  generalize true = go
  generalize ['0'] = run
  generalize ([] : List Name) = vals
  induction ls generalizing go run vals with
  | nil => simp [reformatLoop]
  | cons l ls ih =>
    cases l with
    | badStep => rw [reformatLoop, ih]; simp
    | data u =>
      rw [reformatLoop]
      have := ih go run vals
      cases hr : reformatLoop go run vals ls with
      | none => rw [hr] at this; simpa using this
      | some o => rw [hr] at this; simpa using this
    | step run' ps =>
      rw [reformatLoop]
      have hmap : ps.mapM (·.2) = none ↔ ∃ k, (k, none) ∈ ps := by
        clear ih
        induction ps with
        | nil => simp
        | cons p ps ihp =>
          rw [List.mapM_cons]
          obtain ⟨k, v⟩ := p
          cases v with
          | none => simp
          | some v =>
            cases hm : ps.mapM (·.2) with
            | none => rw [hm] at ihp; simpa using ihp
            | some vs => rw [hm] at ihp; simpa using ihp
      cases hm : ps.mapM (·.2) with
      | none =>
        obtain ⟨k, hk⟩ := hmap.mp hm
        simp only [true_iff]
        exact ⟨run', ps, k, by simp, hk⟩
      | some vals' =>
        have hno : ¬ ∃ k, (k, none) ∈ ps := fun h => by rw [hmap.mpr h] at hm; cases hm
        have := ih false run' vals'
        cases hr : reformatLoop false run' vals' ls with
        | none =>
          rw [hr] at this
          simp only [hr, true_iff] at this ⊢
          obtain ⟨r, p, k, h1, h2⟩ := this
          exact ⟨r, p, k, by simp [h1], h2⟩
        | some o =>
          rw [hr] at this
          simp only [hr, reduceCtorEq, false_iff] at this ⊢
          rintro ⟨r, p, k, h1, h2⟩
          rcases List.mem_cons.mp h1 with h1 | h1
          · cases h1; exact hno ⟨k, h2⟩
          · exact this ⟨r, p, k, h1, h2⟩

/-- C48 (finding): LTSpiceExport cannot read an export without steps: the first data line raises. -/
theorem C48_export_reader_needs_steps (conv raw : Name → V) (headers : List Name) (v : Name) (vs : List Name) (ls : List ELine) :
    readExport conv raw headers (.data (v :: vs) :: ls) = none := by
  unfold readExport
  rw [exportLoop]
  cases headers with
  | nil => simp [appendKeys]
  | cons h hs => simp [appendKeys]

example : reformat [.data ['x'], .step ['1'] [(['R'], some ['5'])], .data ['a'], .data ['b'], .step ['2'] [(['R'], some ['6'])], .data ['c']] =
    some [.row ['0'] [] ['x'], .header [['R']], .row ['1'] [['5']] ['a'], .row ['1'] [['5']] ['b'], .row ['2'] [['6']] ['c']] := by
  decide +kernel

/-! ### C54 -/

/-- The forms of measurement tables LTspice writes: value only, value with an interval, value at a point. -/
inductive Form where | plain | interval | point

/-- Extra column titles of the file, and the names under which they are available. -/
def Form.inFile : Form → List Name
  | .plain => []
  | .interval => ["FROM".toList, "TO".toList]
  | .point => ["at".toList]

def Form.suffixes : Form → List Name
  | .plain => []
  | .interval => ["_FROM".toList, "_TO".toList]
  | .point => ["_at".toList]

/-- One table: its name, the tokens `step` and `expression` of the title line, the form, the rows (step number and
values) and the number of empty lines that follow. -/
structure Table where
  name : Name
  t0 : Name
  t1 : Name
  form : Form
  rows : List (Name × List Name)
  blanks : Nat

/-- The names of the columns of a table. -/
def Table.titles (t : Table) : List Name := t.name :: t.form.suffixes.map (fun s => t.name ++ s)

/-- The lines of a table in the file. -/
def Table.lines (t : Table) : List MLine :=
  .title t.name :: .tokens (t.t0 :: t.t1 :: t.form.inFile) :: t.rows.map (fun r => .tokens (r.1 :: r.2)) ++
    List.replicate t.blanks (.tokens [[]])

/-- The word `step` is not a number, step numbers are, and each row has as many values as there are titles. -/
def Table.WF (isInt : Name → Bool) (t : Table) : Prop :=
  isInt t.t0 = false ∧ ∀ r ∈ t.rows, isInt r.1 = true ∧ r.2.length = t.titles.length

/-- The columns of a table: name and values. -/
def Table.columns (conv : Name → V) (t : Table) : List (Name × List V) :=
  t.titles.zipIdx.map (fun p => (lower p.1, t.rows.map (fun r => conv (r.2.getD p.2 []))))

theorem lookup_put {W : Type} (k k' : Name) (v : W) (d : Dict W) : (put k' v d).lookup k = if k = k' then some v else d.lookup k := by
  induction d with
  | nil =>
    by_cases h : k = k'
    · simp [put, h, List.lookup]
    · have : (k == k') = false := by simpa using h
      simp [put, h, List.lookup, this]
  | cons e d ih =>
    obtain ⟨a, c⟩ := e
    rw [put]
    by_cases ha : a = k'
    · rw [if_pos ha]
      by_cases h : k = k'
      · simp [List.lookup, h, ha]
      · have : (k == a) = false := by simpa [ha] using h
        simp [List.lookup, h, this]
    · rw [if_neg ha]
      by_cases hk : k = a
      · have : ¬ k = k' := by rw [hk]; exact ha
        simp [List.lookup, hk, ha]
      · have hk' : (k == a) = false := by simpa using hk
        simp only [List.lookup, hk']
        exact ih

def putAll {W : Type} (d : Dict W) (kvs : List (Name × W)) : Dict W := kvs.foldl (fun d e => put e.1 e.2 d) d

theorem lookup_putAll {W : Type} (kvs : List (Name × W)) (hnd : (kvs.map (·.1)).Nodup) : ∀ (d : Dict W),
    (∀ e ∈ kvs, (putAll d kvs).lookup e.1 = some e.2) ∧ (∀ k, k ∉ kvs.map (·.1) → (putAll d kvs).lookup k = d.lookup k) := by
  induction kvs with
  | nil => intro d; simp [putAll]
  | cons e kvs ih =>
    intro d
    simp only [List.map_cons, List.nodup_cons] at hnd
    obtain ⟨h1, h2⟩ := ih hnd.2 (put e.1 e.2 d)
    refine ⟨?_, ?_⟩
    · intro f hf
      rcases List.mem_cons.mp hf with rfl | hf
      · have := h2 f.1 hnd.1
        rw [lookup_put, if_pos rfl] at this
        exact this
      · exact h1 f hf
    · intro k hk
      simp only [List.map_cons, List.mem_cons, not_or] at hk
      have := h2 k hk.2
      rw [lookup_put, if_neg hk.1] at this
      exact this

theorem store_ok (rows : List (List V)) (dflt : V) : ∀ (ts : List Name) (k : Nat) (d : Dict (List V)), (∀ r ∈ rows, k + ts.length ≤ r.length) →
    store rows k ts d = some (putAll d ((ts.zipIdx k).map (fun p => (lower p.1, rows.map (fun r => r.getD p.2 dflt))))) := by
  intro ts
  induction ts with
  | nil => intro k d _; rfl
  | cons t ts ih =>
    intro k d h
    rw [store]
    have hm : rows.mapM (fun r => r[k]?) = some (rows.map (fun r => r.getD k dflt)) := by
      clear ih
      induction rows with
      | nil => rfl
      | cons r rows ihr =>
        have hr := h r (by simp)
        rw [List.mapM_cons, ihr (fun r hr => h r (by simp [hr]))]
        have : k < r.length := by simp at hr; omega
        simp [List.getD, List.getElem?_eq_getElem this]
    rw [hm]
    simp only []
    rw [ih (k + 1) _ (fun r hr => by have := h r hr; simp at this; omega)]
    simp [putAll, List.zipIdx_cons]

theorem rename_form (name t0 t1 : Name) (f : Form) :
    name :: (renameHeader name (t0 :: t1 :: f.inFile)).drop 2 = name :: f.suffixes.map (fun s => name ++ s) := by
  cases f
  · rfl
  · simp [renameHeader, Form.inFile, Form.suffixes]
  · simp [renameHeader, Form.inFile, Form.suffixes]

theorem mLines_append (conv : Name → V) (isInt : Name → Bool) : ∀ (a b : List MLine) (s : MState V),
    mLines conv isInt s (a ++ b) = (mLines conv isInt s a).bind (fun s' => mLines conv isInt s' b) := by
  intro a
  induction a with
  | nil => intro b s; rfl
  | cons l a ih =>
    intro b s
    rw [List.cons_append, mLines, mLines]
    cases mLine conv isInt s l with
    | none => rfl
    | some s' => exact ih b s'

theorem rows_ok (conv : Name → V) (isInt : Name → Bool) : ∀ (rows : List (Name × List Name)) (s : MState V),
    (∀ r ∈ rows, isInt r.1 = true ∧ r.2 ≠ []) →
    mLines conv isInt s (rows.map (fun r => .tokens (r.1 :: r.2))) =
      some { s with rows := s.rows ++ rows.map (fun r => r.2.map conv) } := by
  intro rows
  induction rows with
  | nil => intro s _; simp [mLines]
  | cons r rows ih =>
    intro s h
    obtain ⟨h1, h2⟩ := h r (by simp)
    rw [List.map_cons, mLines]
    obtain ⟨i, vs⟩ := r
    cases vs with
    | nil => exact absurd rfl h2
    | cons v vs =>
      simp only [mLine, h1, if_true]
      rw [ih _ (fun r hr => h r (by simp [hr]))]
      simp

theorem blanks_ok (conv : Name → V) (isInt : Name → Bool) (s : MState V) : ∀ n,
    mLines conv isInt s (List.replicate n (.tokens [[]])) = some s := by
  intro n
  induction n with
  | zero => rfl
  | succ n ih => rw [List.replicate_succ, mLines]; exact ih

/-- What is stored when the current table is finished. -/
def finish (s : MState V) : Option (Dict (List V)) :=
  if s.rows = [] then some s.dataset else store s.rows 0 s.headers s.dataset

theorem table_ok (conv : Name → V) (isInt : Name → Bool) (t : Table) (ht : t.WF isInt) (s : MState V) (d : Dict (List V))
    (hf : (s.dataname = none ∧ d = s.dataset ∧ s.rows = []) ∨ (s.dataname ≠ none ∧ finish s = some d)) :
    mLines conv isInt s t.lines = some ⟨d, some t.name, t.titles, t.rows.map (fun r => r.2.map conv)⟩ := by
  rw [Table.lines, mLines_append]
  have h1 : mLine conv isInt s (.title t.name) = some ⟨d, some t.name, if s.dataname = none then s.headers else [], []⟩ := by
    rcases hf with ⟨h1, h2, h3⟩ | ⟨h1, h2⟩
    · simp [mLine, h1, h2, h3]
    · obtain ⟨n, hn⟩ := Option.ne_none_iff_exists'.mp h1
      unfold finish at h2
      by_cases hr : s.rows = []
      · rw [if_pos hr] at h2
        simp at h2
        simp [mLine, hn, hr, h2]
      · rw [if_neg hr] at h2
        simp [mLine, hn, hr, h2]
  have hrow : ∀ r ∈ t.rows, isInt r.1 = true ∧ r.2 ≠ [] := by
    intro r hr
    refine ⟨(ht.2 r hr).1, ?_⟩
    intro h
    have := (ht.2 r hr).2
    rw [h] at this
    simp [Table.titles] at this
  rw [mLines, h1]
  simp only []
  rw [mLines]
  simp only [mLine, ht.1, Bool.false_eq_true, if_false, Option.getD_some]
  rw [rename_form, rows_ok conv isInt t.rows _ hrow]
  simp only [Option.bind_some, List.nil_append]
  rw [blanks_ok]
  rfl

theorem finish_table (conv : Name → V) (isInt : Name → Bool) (t : Table) (ht : t.WF isInt) (d : Dict (List V)) :
    finish ⟨d, some t.name, t.titles, t.rows.map (fun r => r.2.map conv)⟩ =
      some (if t.rows = [] then d else putAll d (t.columns conv)) := by
  unfold finish
  by_cases hr : t.rows = []
  · simp [hr]
  · simp only [List.map_eq_nil_iff, hr, if_false]
    rw [store_ok _ (conv [])]
    · congr 2
      unfold Table.columns
      apply List.map_congr_left
      intro p hp
      simp only [List.map_map, Prod.mk.injEq, true_and]
      apply List.map_congr_left
      intro r hrm
      have hl := (ht.2 r hrm).2
      have hlt : p.2 < t.titles.length := by
        have := List.mem_zipIdx hp
        omega
      simp [List.getD, List.getElem?_eq_getElem (show p.2 < r.2.length by omega)]
    · intro r hrm
      obtain ⟨q, hq, rfl⟩ := List.mem_map.mp hrm
      simp [(ht.2 q hq).2]

theorem tables_ok (conv : Name → V) (isInt : Name → Bool) : ∀ (ts : List Table) (s : MState V) (d : Dict (List V)),
    (∀ t ∈ ts, t.WF isInt) →
    ((s.dataname = none ∧ d = s.dataset ∧ s.rows = []) ∨ (s.dataname ≠ none ∧ finish s = some d)) →
    (mLines conv isInt s (ts.flatMap Table.lines)).bind finish =
      some (putAll d ((ts.filter (fun t => !t.rows.isEmpty)).flatMap (fun t => t.columns conv))) := by
  intro ts
  induction ts with
  | nil =>
    intro s d _ h
    rcases h with ⟨h1, h2, h3⟩ | ⟨h1, h2⟩
    · simp [mLines, finish, h3, h2, putAll]
    · simp [mLines, h2, putAll]
  | cons t ts ih =>
    intro s d hw h
    have ht := hw t (by simp)
    rw [List.flatMap_cons, mLines_append, table_ok conv isInt t ht s d h]
    simp only [Option.bind_some]
    rw [ih _ (if t.rows = [] then d else putAll d (t.columns conv)) (fun t ht => hw t (by simp [ht]))
      (.inr ⟨by simp, finish_table conv isInt t ht d⟩)]
    by_cases hr : t.rows = []
    · simp [hr]
    · simp [hr, putAll, List.foldl_append]

/-- C54: a log file whose measurement part is any sequence of tables is read column by column: if no two columns have
the same name (in lower case), every column of every non-empty table is in the dataset with the
values of its rows, in order, and entries of other names are unchanged. -/
theorem C54_measurement_tables (conv : Name → V) (isInt : Name → Bool) (d : Dict (List V)) (ts : List Table)
    (hw : ∀ t ∈ ts, t.WF isInt)
    (hnd : ((ts.flatMap Table.titles).map lower).Nodup) :
    ∃ d', readMeasures conv isInt d (ts.flatMap Table.lines) = some d' ∧
      (∀ t ∈ ts, t.rows ≠ [] → ∀ k title, t.titles[k]? = some title →
        d'.lookup (lower title) = some (t.rows.map (fun r => conv (r.2.getD k [])))) ∧
      (∀ n, n ∉ (ts.flatMap Table.titles).map lower → d'.lookup n = d.lookup n) := by
  have h := tables_ok conv isInt ts ⟨d, none, [], []⟩ d hw (.inl ⟨rfl, rfl, rfl⟩)
  have hcols : ∀ t : Table, (t.columns conv).map (·.1) = t.titles.map lower := by
    intro t
    unfold Table.columns
    rw [List.map_map]
    have : ((fun x : Name × List V => x.1) ∘ fun p : Name × Nat => (lower p.1, t.rows.map (fun r => conv (r.2.getD p.2 [])))) = lower ∘ Prod.fst := rfl
    rw [this, ← List.map_map, List.zipIdx_map_fst]
  have hkeys : ∀ l : List Table, (l.flatMap (fun t => t.columns conv)).map (·.1) = (l.flatMap Table.titles).map lower := by
    intro l
    induction l with
    | nil => rfl
    | cons t l ih => rw [List.flatMap_cons, List.flatMap_cons, List.map_append, List.map_append, ih, hcols]
  have hsub : (ts.filter (fun t => !t.rows.isEmpty)).Sublist ts := List.filter_sublist
  have hsubt : ∀ {a b : List Table}, a.Sublist b → ((a.flatMap Table.titles).map lower).Sublist ((b.flatMap Table.titles).map lower) := by
    intro a b hab
    refine List.Sublist.map _ ?_
    induction hab with
    | slnil => simp
    | cons t _ ih => rw [List.flatMap_cons]; exact ih.trans (List.sublist_append_right _ _)
    | cons_cons t _ ih => rw [List.flatMap_cons, List.flatMap_cons]; exact List.Sublist.append (List.Sublist.refl _) ih
  have hnd2 : (((ts.filter (fun t => !t.rows.isEmpty)).flatMap (fun t => t.columns conv)).map (·.1)).Nodup := by
    rw [hkeys]; exact hnd.sublist (hsubt hsub)
  obtain ⟨g1, g2⟩ := lookup_putAll _ hnd2 d
  refine ⟨putAll d ((ts.filter (fun t => !t.rows.isEmpty)).flatMap (fun t => t.columns conv)), ?_, ?_, ?_⟩
  · unfold readMeasures
    cases hm : mLines conv isInt ⟨d, none, [], []⟩ (ts.flatMap Table.lines) with
    | none => rw [hm] at h; cases h
    | some s => rw [hm] at h; exact h
  · intro t ht hr k title hk
    refine g1 (lower title, t.rows.map (fun r => conv (r.2.getD k []))) ?_
    refine List.mem_flatMap.mpr ⟨t, List.mem_filter.mpr ⟨ht, ?_⟩, ?_⟩
    · cases hq : t.rows with
      | nil => exact absurd hq hr
      | cons => rfl
    · unfold Table.columns
      refine List.mem_map.mpr ⟨(title, k), ?_, rfl⟩
      rw [List.mk_mem_zipIdx_iff_getElem?]
      exact hk
  · intro n hn
    refine g2 n ?_
    rw [hkeys]
    exact fun h => hn ((hsubt hsub).subset h)

/-- C54 (finding): when two tables have the same name only the last one is kept. -/
theorem C54_same_name_last_kept :
    readMeasures id (fun n => n ∈ [['1'], ['2']]) []
      ([.title ['m'], .tokens [['s'], ['e']], .tokens [['1'], ['a']], .title ['M'], .tokens [['s'], ['e']], .tokens [['1'], ['b']]]) =
      some [(['m'], [['b']])] := by decide +kernel

example : readMeasures id (fun n => n ∈ [['1'], ['2']]) []
    (Table.lines ⟨['V'], ['s'], ['e'], .interval, [(['1'], [['5'], ['0'], ['9']]), (['2'], [['6'], ['0'], ['8']])], 1⟩) =
    some [(['v'], [['5'], ['6']]), ("v_from".toList, [['0'], ['0']]), ("v_to".toList, [['9'], ['8']])] := by decide +kernel
example : Table.WF (fun n => n ∈ [['1'], ['2']])
    ⟨['V'], ['s'], ['e'], .interval, [(['1'], [['5'], ['0'], ['9']]), (['2'], [['6'], ['0'], ['8']])], 1⟩ := by
  refine ⟨by decide, ?_⟩
  intro r hr
  simp at hr
  rcases hr with rfl | rfl <;> exact ⟨by decide, by decide⟩

end Props.LogRead
