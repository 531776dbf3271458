import Verif.Model.StepCsv
import Verif.Spec.Csv
import Verif.Lemmas.PyStr
import Mathlib.Data.List.Perm.Basic
import Mathlib.Tactic.SplitIfs
/-
C93: the values of a sweep as a CSV file.
-/
namespace Props.StepCsv
open Model.StepCsv
open Spec.Csv (Cell At table)

/-- What stands in a cell: the text of a value, and whether it is marked as text. -/
def cell (delim : Char) : Val → Cell
  | .text s => (s, true)
  | .num s => (s, s.any (special delim))

theorem inside_text (delim : Char) (rest : Str) : ∀ (s cur : Str) (cells : List Cell),
    Spec.Csv.read delim .inside cur cells (doubled s ++ ('"' :: rest)) = Spec.Csv.read delim .after (cur ++ s) cells rest := by
  intro s
  induction s with
  | nil =>
    intro cur cells
    show Spec.Csv.read delim .inside cur cells ('"' :: rest) = _
    rw [Spec.Csv.read, if_pos rfl, List.append_nil]
  | cons c r ih =>
    intro cur cells
    unfold doubled
    by_cases hc : c = '"'
    · rw [if_pos hc]
      show Spec.Csv.read delim .inside cur cells ('"' :: '"' :: (doubled r ++ '"' :: rest)) = _
      rw [Spec.Csv.read, if_pos rfl, Spec.Csv.read, if_pos rfl, ih, hc]
      simp
    · rw [if_neg hc]
      show Spec.Csv.read delim .inside cur cells (c :: (doubled r ++ '"' :: rest)) = _
      rw [Spec.Csv.read, if_neg hc, ih]
      simp

theorem plain_text (delim : Char) (rest : Str) : ∀ (s cur : Str) (cells : List Cell), (∀ c ∈ s, special delim c = false) →
    Spec.Csv.read delim .plain cur cells (s ++ rest) = Spec.Csv.read delim .plain (cur ++ s) cells rest := by
  intro s
  induction s with
  | nil => intro cur cells _; simp
  | cons c r ih =>
    intro cur cells h
    have hc := h c (by simp)
    simp only [special, Bool.or_eq_false_iff, decide_eq_false_iff_not] at hc
    obtain ⟨⟨⟨h1, h2⟩, h3⟩, h4⟩ := hc
    show Spec.Csv.read delim .plain cur cells (c :: (r ++ rest)) = _
    rw [Spec.Csv.read, if_neg h1, if_neg h3, if_neg h4, ih _ _ (fun x hx => h x (by simp [hx]))]
    simp

/-- What the reader does behind a cell: a delimiter or the end of the row. -/
theorem read_field (delim : Char) (hd : delim ≠ '"' ∧ delim ≠ '\r' ∧ delim ≠ '\n') (v : Val) (hv : ∀ s, v = .num s → s ≠ []) (cells : List Cell) (rest : Str) :
    Spec.Csv.read delim .start [] cells (field delim v ++ delim :: rest) = Spec.Csv.read delim .start [] (cells ++ [cell delim v]) rest ∧
    Spec.Csv.read delim .start [] cells (field delim v ++ '\r' :: '\n' :: rest) = (cells ++ [cell delim v]) :: Spec.Csv.read delim .start [] [] rest := by
  have hq : ∀ (s : Str) (tail : Str), Spec.Csv.read delim .start [] cells (quote s ++ tail) = Spec.Csv.read delim .after s cells tail := by
    intro s tail
    unfold quote
    show Spec.Csv.read delim .start [] cells ('"' :: (doubled s ++ ['"'] ++ tail)) = _
    rw [Spec.Csv.read, if_pos rfl, List.append_assoc]
    have := inside_text delim tail s [] cells
    simpa using this
  have hafter : ∀ s : Str, Spec.Csv.read delim .after s cells (delim :: rest) = Spec.Csv.read delim .start [] (cells ++ [(s, true)]) rest ∧
      Spec.Csv.read delim .after s cells ('\r' :: '\n' :: rest) = (cells ++ [(s, true)]) :: Spec.Csv.read delim .start [] [] rest := by
    intro s
    constructor
    · rw [Spec.Csv.read, if_neg hd.1, if_pos rfl]
    · rw [Spec.Csv.read, if_neg (by decide), if_neg (fun h => hd.2.1 h.symm), if_pos rfl]
      rw [Spec.Csv.read, if_neg (by decide), if_neg (fun h => hd.2.2 h.symm), if_neg (by decide), if_pos rfl]
  cases v with
  | text s =>
    show Spec.Csv.read delim .start [] cells (quote s ++ _) = _ ∧ Spec.Csv.read delim .start [] cells (quote s ++ _) = _
    rw [hq, hq]
    exact hafter s
  | num s =>
    unfold field cell
    simp only
    by_cases ha : s.any (special delim) = true
    · rw [if_pos ha, hq, hq, ha]
      exact hafter s
    · rw [if_neg ha]
      simp only [Bool.not_eq_true] at ha
      rw [ha]
      have hall : ∀ c ∈ s, special delim c = false := by
        intro c hc
        rw [List.any_eq_false] at ha
        simpa using ha c hc
      cases s with
      | nil => exact absurd rfl (hv [] rfl)
      | cons c r =>
        have hc := hall c (by simp)
        simp only [special, Bool.or_eq_false_iff, decide_eq_false_iff_not] at hc
        obtain ⟨⟨⟨h1, h2⟩, h3⟩, h4⟩ := hc
        have hstart : ∀ tail, Spec.Csv.read delim .start [] cells (c :: r ++ tail) = Spec.Csv.read delim .plain (c :: r) cells tail := by
          intro tail
          show Spec.Csv.read delim .start [] cells (c :: (r ++ tail)) = _
          rw [Spec.Csv.read, if_neg h2, if_neg h1, if_neg h3, if_neg h4]
          have := plain_text delim tail r [c] cells (fun x hx => hall x (by simp [hx]))
          simpa using this
        rw [hstart, hstart]
        constructor
        · rw [Spec.Csv.read, if_pos rfl]
        · rw [Spec.Csv.read, if_neg (fun h => hd.2.1 h.symm), if_pos rfl, Spec.Csv.read, if_neg (fun h => hd.2.2 h.symm), if_neg (by decide), if_pos rfl]

theorem read_row (delim : Char) (hd : delim ≠ '"' ∧ delim ≠ '\r' ∧ delim ≠ '\n') (rest : Str) : ∀ (vs : List Val) (cells : List Cell), vs ≠ [] →
    (∀ v ∈ vs, ∀ s, v = .num s → s ≠ []) →
    Spec.Csv.read delim .start [] cells (row delim vs ++ rest) = (cells ++ vs.map (cell delim)) :: Spec.Csv.read delim .start [] [] rest := by
  intro vs
  induction vs with
  | nil => intro _ h; exact absurd rfl h
  | cons v r ih =>
    intro cells _ hv
    cases r with
    | nil =>
      have := (read_field delim hd v (hv v (by simp)) cells rest).2
      simpa [row, List.intercalate] using this
    | cons v2 r2 =>
      have e : row delim (v :: v2 :: r2) ++ rest = field delim v ++ delim :: (row delim (v2 :: r2) ++ rest) := by
        simp [row, List.intercalate, List.intersperse]
      rw [e, (read_field delim hd v (hv v (by simp)) cells _).1, ih _ (by simp) (fun x hx => hv x (by simp [hx]))]
      simp

theorem insert_perm (x : Nat × Dict) : ∀ l : List (Nat × Dict), (Model.StepCsv.insert x l).Perm (x :: l) := by
  intro l
  induction l with
  | nil => exact List.Perm.refl _
  | cons y r ih =>
    unfold Model.StepCsv.insert
    split_ifs
    · exact List.Perm.refl _
    · exact (ih.cons y).trans (List.Perm.swap _ _ _)

theorem sorted_perm : ∀ l : List (Nat × Dict), (sorted l).Perm l := by
  intro l
  induction l with
  | nil => exact List.Perm.refl _
  | cons x r ih => exact (insert_perm x _).trans (ih.cons x)

theorem insert_sorted (x : Nat × Dict) : ∀ l : List (Nat × Dict), l.Pairwise (fun a b => a.1 ≤ b.1) → (Model.StepCsv.insert x l).Pairwise (fun a b => a.1 ≤ b.1) := by
  intro l
  induction l with
  | nil => intro _; simp [Model.StepCsv.insert]
  | cons y r ih =>
    intro h
    rw [List.pairwise_cons] at h
    unfold Model.StepCsv.insert
    split_ifs with hc
    · rw [List.pairwise_cons]
      refine ⟨?_, List.pairwise_cons.2 h⟩
      intro z hz
      rcases List.mem_cons.1 hz with rfl | hz
      · exact hc
      · exact Nat.le_trans hc (h.1 z hz)
    · rw [List.pairwise_cons]
      refine ⟨?_, ih h.2⟩
      intro z hz
      have := (insert_perm x r).subset hz
      rcases List.mem_cons.1 this with rfl | hz
      · omega
      · exact h.1 z hz

theorem sorted_sorted : ∀ l : List (Nat × Dict), (sorted l).Pairwise (fun a b => a.1 ≤ b.1) := by
  intro l
  induction l with
  | nil => exact List.Pairwise.nil
  | cons x r ih => exact insert_sorted x _ ih

theorem lookup_put (d : Dict) (k n : Str) (v : Val) : (put d k v).lookup n = if n = k then some v else d.lookup n := by
  induction d with
  | nil =>
    unfold put
    by_cases h : n = k
    · subst h; simp
    · simp [List.lookup_cons, beq_eq_false_iff_ne.2 h, h]
  | cons e r ih =>
    obtain ⟨a, w⟩ := e
    unfold put
    by_cases h1 : a = k
    · subst h1
      rw [if_pos rfl]
      by_cases h : n = a
      · subst h; simp
      · simp [List.lookup_cons, beq_eq_false_iff_ne.2 h, h]
    · rw [if_neg h1]
      by_cases h : n = a
      · subst h; simp [h1]
      · simp only [List.lookup_cons, beq_eq_false_iff_ne.2 h, ih]

theorem keys_put (d : Dict) (k : Str) (v : Val) (n : Str) : n ∈ (put d k v).map Prod.fst ↔ n = k ∨ n ∈ d.map Prod.fst := by
  induction d with
  | nil => simp [put]
  | cons e r ih =>
    obtain ⟨a, w⟩ := e
    unfold put
    by_cases h1 : a = k
    · subst h1; rw [if_pos rfl]; simp
    · rw [if_neg h1]
      simp only [List.map_cons, List.mem_cons, ih]
      constructor
      · rintro (h | h | h)
        · exact .inr (.inl h)
        · exact .inl h
        · exact .inr (.inr h)
      · rintro (h | h | h)
        · exact .inr (.inl h)
        · exact .inl h
        · exact .inr (.inr h)

theorem keys_update : ∀ (e d : Dict) (n : Str), n ∈ (update d e).map Prod.fst ↔ n ∈ d.map Prod.fst ∨ n ∈ e.map Prod.fst := by
  intro e
  induction e with
  | nil => intro d n; simp [update]
  | cons p r ih =>
    intro d n
    show n ∈ (update (put d p.1 p.2) r).map Prod.fst ↔ _
    rw [ih, keys_put]
    simp only [List.map_cons, List.mem_cons]
    constructor
    · rintro ((h | h) | h)
      · exact .inr (.inl h)
      · exact .inl h
      · exact .inr (.inr h)
    · rintro (h | h | h)
      · exact .inl (.inr h)
      · exact .inl (.inl h)
      · exact .inr h

theorem lookup_absent (n : Str) : ∀ d : Dict, n ∉ d.map Prod.fst → d.lookup n = none := by
  intro d
  induction d with
  | nil => intro _; rfl
  | cons e r ih =>
    obtain ⟨a, c⟩ := e
    intro h
    simp only [List.map_cons, List.mem_cons, not_or] at h
    simp only [List.lookup_cons, beq_eq_false_iff_ne.2 h.1, ih h.2]

theorem lookup_update : ∀ (e d : Dict) (n : Str), (e.map Prod.fst).Nodup → (update d e).lookup n = (e.lookup n).or (d.lookup n) := by
  intro e
  induction e with
  | nil => intro d n _; simp [update]
  | cons p r ih =>
    intro d n hn
    obtain ⟨a, v⟩ := p
    simp only [List.map_cons, List.nodup_cons] at hn
    show (update (put d a v) r).lookup n = _
    rw [ih _ _ hn.2, lookup_put]
    by_cases h : n = a
    · subst h
      rw [lookup_absent n r hn.1]
      simp
    · simp [List.lookup_cons, beq_eq_false_iff_ne.2 h, h]

/-- A run as a row of the table: its number, then its value of every variable (the empty text if it has none). -/
def runRow (delim : Char) (names : List Str) (x : Nat × Dict) : List Cell :=
  (Model.PyStr.showNat x.1, (Model.PyStr.showNat x.1).any (special delim)) :: names.map (fun n => cell delim ((x.2.lookup n).getD (.text [])))

/-- The runs as they come out of a sweep: variables are named once, none is called runno, numbers have a text. -/
structure Regular (x : Nat × Dict) : Prop where
  nodup : (x.2.map Prod.fst).Nodup
  free : "runno".toList ∉ x.2.map Prod.fst
  shown : ∀ e ∈ x.2, ∀ s, e.2 = .num s → s ≠ []

theorem lookup_mem (n : Str) (v : Val) : ∀ d : Dict, d.lookup n = some v → (n, v) ∈ d := by
  intro d
  induction d with
  | nil => intro h; simp at h
  | cons e r ih =>
    obtain ⟨a, w⟩ := e
    intro h
    by_cases hn : n = a
    · subst hn
      simp only [List.lookup_cons, beq_self_eq_true, Option.some.injEq] at h
      subst h; simp
    · simp only [List.lookup_cons, beq_eq_false_iff_ne.2 hn] at h
      exact List.mem_cons_of_mem _ (ih h)

theorem dictRow_ok (names : List Str) (x : Nat × Dict) (hx : Regular x) (hr : "runno".toList ∉ names) (hsub : ∀ n ∈ x.2.map Prod.fst, n ∈ names) :
    dictRow ("runno".toList :: names) (rowOf x) = .ok (.num (Model.PyStr.showNat x.1) :: names.map (fun n => (x.2.lookup n).getD (.text []))) := by
  unfold dictRow
  have h1 : (rowOf x).all (fun e => decide (e.1 ∈ "runno".toList :: names)) = true := by
    rw [List.all_eq_true]
    intro e he
    have hm : e.1 ∈ (rowOf x).map Prod.fst := List.mem_map_of_mem he
    unfold rowOf at hm
    rw [keys_update] at hm
    simp only [decide_eq_true_eq, List.mem_cons]
    rcases hm with h | h
    · left; simpa using h
    · right; exact hsub _ h
  rw [if_pos h1]
  congr 1
  rw [List.map_cons]
  have hl : ∀ n, (rowOf x).lookup n = (x.2.lookup n).or (List.lookup n [("runno".toList, Val.num (Model.PyStr.showNat x.1))]) := by
    intro n; exact lookup_update _ _ n hx.nodup
  congr 1
  · rw [hl, lookup_absent _ _ hx.free]
    rfl
  · apply List.map_congr_left
    intro n hn
    have hne : n ≠ "runno".toList := fun h => hr (h ▸ hn)
    rw [hl]
    simp only [List.lookup_cons, beq_eq_false_iff_ne.2 hne, List.lookup_nil, Option.or_none]

theorem rows_ok (delim : Char) (hd : delim ≠ '"' ∧ delim ≠ '\r' ∧ delim ≠ '\n') (names : List Str) (hr : "runno".toList ∉ names) : ∀ l : List (Nat × Dict),
    (∀ x ∈ l, Regular x ∧ ∀ n ∈ x.2.map Prod.fst, n ∈ names) →
    ∃ t, rows delim ("runno".toList :: names) l = .ok t ∧ Spec.Csv.read delim .start [] [] t = l.map (runRow delim names) := by
  intro l
  induction l with
  | nil => intro _; exact ⟨[], rfl, by simp [Spec.Csv.read]⟩
  | cons x r ih =>
    intro h
    obtain ⟨hx, hsub⟩ := h x (by simp)
    obtain ⟨t, h1, h2⟩ := ih (fun y hy => h y (by simp [hy]))
    refine ⟨row delim (.num (Model.PyStr.showNat x.1) :: names.map (fun n => (x.2.lookup n).getD (.text []))) ++ t, ?_, ?_⟩
    · unfold rows
      rw [dictRow_ok names x hx hr hsub]
      simp only
      rw [h1]
    · rw [read_row delim hd t _ [] (by simp) ?_, h2]
      · simp [runRow, cell]
      · intro v hv s hs
        rcases List.mem_cons.1 hv with rfl | hv
        · simp only [Val.num.injEq] at hs
          subst hs
          exact Lemmas.PyStr.showNat_ne x.1
        · rw [List.mem_map] at hv
          obtain ⟨n, _, rfl⟩ := hv
          cases hl : x.2.lookup n with
          | none => rw [hl] at hs; simp at hs
          | some w =>
            rw [hl] at hs
            exact hx.shown (n, w) (lookup_mem n w _ hl) s (by simpa using hs)

/-- C93: the file, read as CSV, is the table of the sweep: a row of titles, then one row per simulation in the order of the run numbers, with the values exactly
as they were set, texts marked as texts; whatever delimiters, quotes and line breaks they contain. -/
theorem C93_table (delim : Char) (hd : delim ≠ '"' ∧ delim ≠ '\r' ∧ delim ≠ '\n') (info : List (Nat × Dict)) (hne : info ≠ [])
    (hreg : ∀ x ∈ info, Regular x) (hsame : ∀ x ∈ info, ∀ y ∈ info, ∀ n ∈ x.2.map Prod.fst, n ∈ y.2.map Prod.fst) :
    ∃ (text : Str) (order : List (Nat × Dict)) (names : List Str), exportCsv delim info = .ok text ∧ order.Perm info ∧ order.Pairwise (fun a b => a.1 ≤ b.1) ∧
      (∀ x ∈ info, ∀ n, n ∈ names ↔ n ∈ x.2.map Prod.fst) ∧
      table delim text = (("runno".toList :: names).map (fun n => (n, true))) :: order.map (runRow delim names) := by
  have hp := sorted_perm info
  cases hs : sorted info with
  | nil =>
    rw [hs] at hp
    exact absurd hp.symm.eq_nil hne
  | cons x r =>
    have hx : x ∈ info := hp.subset (by rw [hs]; simp)
    obtain ⟨t, h1, h2⟩ := rows_ok delim hd (x.2.map Prod.fst) (hreg x hx).free (x :: r) (fun y hy => by
      have hy' : y ∈ info := hp.subset (by rw [hs]; exact hy)
      exact ⟨hreg y hy', hsame y hy' x hx⟩)
    refine ⟨row delim ((("runno".toList) :: x.2.map Prod.fst).map .text) ++ t, sorted info, x.2.map Prod.fst, ?_, hp, sorted_sorted info, ?_, ?_⟩
    · unfold exportCsv
      rw [hs]
      simp only
      rw [h1]
    · intro y hy n
      exact ⟨hsame x hx y hy n, hsame y hy x hx n⟩
    · unfold table
      rw [read_row delim hd t _ [] (by simp) ?_, h2, hs]
      · simp [cell, Function.comp_def]
      · intro v hv s hs
        rw [List.mem_map] at hv
        obtain ⟨n, _, rfl⟩ := hv
        simp at hs

theorem rows_refused (delim : Char) (names : List Str) : ∀ l : List (Nat × Dict), (∃ x ∈ l, ∃ n ∈ x.2.map Prod.fst, n ∉ names) →
    rows delim names l = .error .value := by
  intro l
  induction l with
  | nil => rintro ⟨x, h, _⟩; simp at h
  | cons y r ih =>
    rintro ⟨x, hx, n, hn, hnn⟩
    unfold rows
    by_cases hd : (rowOf y).all (fun e => decide (e.1 ∈ names)) = true
    · unfold dictRow
      rw [if_pos hd]
      simp only
      rcases List.mem_cons.1 hx with rfl | hx
      · exfalso
        have : n ∈ (rowOf x).map Prod.fst := by unfold rowOf; rw [keys_update]; exact .inr hn
        rw [List.mem_map] at this
        obtain ⟨e, he, rfl⟩ := this
        rw [List.all_eq_true] at hd
        exact hnn (by simpa using hd e he)
      · rw [ih ⟨x, hx, n, hn, hnn⟩]
    · unfold dictRow
      rw [if_neg hd]

/-- C93: without simulations there is an IndexError; a variable that the simulation with the lowest number does not have is a ValueError. -/
theorem C93_refused (delim : Char) (info : List (Nat × Dict)) :
    (info = [] → exportCsv delim info = .error .index) ∧
    (∀ x ∈ info, (∀ y ∈ info, y ≠ x → x.1 < y.1) → (∃ y ∈ info, ∃ n ∈ y.2.map Prod.fst, n ≠ "runno".toList ∧ n ∉ x.2.map Prod.fst) → exportCsv delim info = .error .value) := by
  constructor
  · intro h; subst h; rfl
  · intro x hx hmin hy
    have hp := sorted_perm info
    unfold exportCsv
    cases hs : sorted info with
    | nil => rw [hs] at hp; exact absurd hx (by rw [hp.symm.eq_nil]; simp)
    | cons z r =>
      have hz : z ∈ info := hp.subset (by rw [hs]; simp)
      have hzx : z = x := by
        by_contra hne
        have h1 := hmin z hz hne
        have h2 := sorted_sorted info
        rw [hs, List.pairwise_cons] at h2
        have h3 : x ∈ z :: r := by rw [← hs]; exact hp.symm.subset hx
        rcases List.mem_cons.1 h3 with h | h
        · exact hne h.symm
        · have := h2.1 x h; omega
      subst hzx
      simp only
      obtain ⟨y, hy, n, hn, hnr, hnn⟩ := hy
      rw [rows_refused delim _ (z :: r) ⟨y, by rw [← hs]; exact hp.symm.subset hy, n, hn, by
        simp only [List.mem_cons, not_or]; exact ⟨hnr, hnn⟩⟩]

/-! ### Instances and limits -/

def demo : List (Nat × Dict) :=
  [(2, [("R1".toList, .num "20".toList), ("D1".toList, .text "a\";\nb".toList)]), (1, [("R1".toList, .num "10".toList), ("D1".toList, .text "x".toList)])]

/-- An instance of C93: two runs, stored in the wrong order, with a model name that contains a quote, a delimiter and a line break. -/
theorem C93_sample :
    (exportCsv ';' demo).toOption.map (table ';') = some
      [[("runno".toList, true), ("R1".toList, true), ("D1".toList, true)],
       [("1".toList, false), ("10".toList, false), ("x".toList, true)],
       [("2".toList, false), ("20".toList, false), ("a\";\nb".toList, true)]] ∧
    (∀ x ∈ demo, Regular x) := by
  refine ⟨by decide +kernel, ?_⟩
  intro x hx
  simp only [demo, List.mem_cons, List.not_mem_nil, or_false] at hx
  rcases hx with rfl | rfl <;> exact ⟨by simp, by simp, by simp⟩

/-- Limits of C93: a sweep over a variable called runno hides the run numbers; a number whose text contains the delimiter is marked as text; a variable that only later
simulations have stops the export. -/
theorem C93_limits :
    (exportCsv ';' [(7, [("runno".toList, .num "1".toList)])]).toOption.map (table ';') =
      some [[("runno".toList, true), ("runno".toList, true)], [("1".toList, false), ("1".toList, false)]] ∧
    (exportCsv '.' [(7, [("R1".toList, .num "1.5".toList)])]).toOption.map (table '.') =
      some [[("runno".toList, true), ("R1".toList, true)], [("7".toList, false), ("1.5".toList, true)]] ∧
    (exportCsv ';' [(1, [("R1".toList, .num "1".toList)]), (2, [("R1".toList, .num "1".toList), ("R2".toList, .num "1".toList)])]).toOption = none := by
  refine ⟨?_, ?_, ?_⟩ <;> decide +kernel

end Props.StepCsv
