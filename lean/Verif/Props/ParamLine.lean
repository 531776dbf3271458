import Verif.Lemmas.ParamRegex
import Mathlib.Data.List.Perm.Basic

/-! C60: parameters of schematics (LTspice and QSPICE). -/
namespace Props.ParamLine
open Model.PyStr Model.ParamRegex Lemmas.ParamRegex
open Spec.ParamLine hiding Str
open Model.Asc (Text Sch)

/-! ### Directives -/

/-- Every `.param` directive of the grammar is read as its list of parameters: names, values and positions. -/
theorem C60_read (l : Line) (h : l.Ok) :
    (findIter l.text).map (fun m => (m.name, m.value)) = l.items.map (fun i => (i.name, i.value)) := by
  rw [findIter_line l h]
  generalize l.kw.length = n
  induction l.items generalizing n with
  | nil => rfl
  | cons i t ih => simp only [spans, List.map_cons, ih]

theorem line_named (l : Line) (h : l.Ok) (p v : Str) :
    (find p l.items = none → named p (findIter l.text) = none) ∧
    (∀ x, find p l.items = some x → ∃ m, named p (findIter l.text) = some m ∧ m.value = x ∧
      splice l.text m.start m.stop v = ({ l with items := assign p v l.items } : Line).text) := by
  rw [findIter_line l h]
  exact named_spans p v l.items l.kw.length l.kw l.tail rfl

/-! ### LTspice documents -/

/-- A text of the document as the schematic holds it. -/
def ascText : Dir Text → Text
  | .other t => t
  | .params t l => { t with text := l.text }

/-- Well formed: the directives are in the grammar, and the other texts are comments or do not start with .PARAM. -/
def AscOk : Dir Text → Prop
  | .other t => t.type = .comment ∨ ¬ ∃ w r : Str, t.text = w ++ r ∧ upper w = ".PARAM".toList
  | .params t l => t.type ≠ .comment ∧ l.Ok

theorem isParam_iff (s : Str) : isParam s = true ↔ ∃ w r : Str, s = w ++ r ∧ upper w = ".PARAM".toList := by
  unfold isParam
  rw [List.isPrefixOf_iff_prefix]
  constructor
  · rintro ⟨t, e⟩
    refine ⟨s.take 6, s.drop 6, (List.take_append_drop _ _).symm, ?_⟩
    have : (upper s).take 6 = ".PARAM".toList := by rw [← e]; rfl
    rw [← this]; simp [upper]
  · rintro ⟨w, r, rfl, h⟩
    exact ⟨upper r, by rw [← h]; simp [upper]⟩

theorem find_append (p : Str) (a b : List Item) : find p (a ++ b) = (find p a).or (find p b) := by
  induction a with
  | nil => simp [find]
  | cons i a ih => simp only [List.cons_append, find, ih]; split <;> simp

theorem asc_find (p v : Str) : ∀ (d : List (Dir Text)), (∀ x ∈ d, AscOk x) →
    (value p d = none → ascFind p (d.map ascText) = none) ∧
    (∀ x, value p d = some x → ∃ i m, ascFind p (d.map ascText) = some (i, m) ∧ m.value = x ∧
      (d.map ascText).modify i (fun t => { t with text := splice t.text m.start m.stop v }) = (update p v d).map ascText) := by
  intro d
  induction d with
  | nil => intro _; exact ⟨fun _ => rfl, fun x hx => by simp [value, find] at hx⟩
  | cons e d ih =>
    intro h
    obtain ⟨ih1, ih2⟩ := ih (fun x hx => h x (by simp [hx]))
    have he := h e (by simp)
    cases e with
    | other t =>
      have hv : value p (.other t :: d) = value p d := by simp [value, Dir.items]
      have hf : ascFind p ((.other t :: d : List (Dir Text)).map ascText) = (ascFind p (d.map ascText)).map (fun r => (r.1 + 1, r.2)) := by
        simp only [List.map_cons, ascText, ascFind]
        rcases he with hc | hc
        · rw [if_pos hc]
        · by_cases hc' : t.type = .comment
          · rw [if_pos hc']
          · rw [if_neg hc', if_neg (by rw [isParam_iff]; exact hc)]
      rw [hv, hf]
      refine ⟨fun hn => by rw [ih1 hn]; rfl, fun x hx => ?_⟩
      obtain ⟨i, m, h1, h2, h3⟩ := ih2 x hx
      refine ⟨i + 1, m, by rw [h1]; rfl, h2, ?_⟩
      simp only [List.map_cons, List.modify_succ_cons, update, h3]
    | params t l =>
      obtain ⟨hc, hl⟩ := he
      have hv : value p (.params t l :: d) = (find p l.items).or (value p d) := by
        simp only [value, List.flatMap_cons, Dir.items, find_append]
      obtain ⟨l1, l2⟩ := line_named l hl p v
      have hf : ascFind p ((.params t l :: d : List (Dir Text)).map ascText) =
          match named p (findIter l.text) with
          | some m => some (0, m)
          | none => (ascFind p (d.map ascText)).map (fun r => (r.1 + 1, r.2)) := by
        simp only [List.map_cons, ascText, ascFind]
        rw [if_neg hc, if_pos (isParam_line l hl)]
        rfl
      rw [hv, hf]
      cases hfl : find p l.items with
      | none =>
        rw [l1 hfl]
        simp only [Option.none_or]
        refine ⟨fun hn => by rw [ih1 hn]; rfl, fun x hx => ?_⟩
        obtain ⟨i, m, h1, h2, h3⟩ := ih2 x hx
        refine ⟨i + 1, m, by rw [h1]; rfl, h2, ?_⟩
        simp only [List.map_cons, List.modify_succ_cons, update, hfl, Option.isSome_none, Bool.false_eq_true, if_false, h3]
      | some y =>
        obtain ⟨m, h1, h2, h3⟩ := l2 y hfl
        rw [h1]
        refine ⟨fun hn => by simp at hn, fun x hx => ?_⟩
        simp only [Option.some_or, Option.some.injEq] at hx
        refine ⟨0, m, rfl, h2.trans hx, ?_⟩
        simp only [List.map_cons, List.modify_zero_cons, update, hfl, Option.isSome_some, if_true, ascText, h3]

/-- get_parameter gives the value of the first definition, in any letter case, and raises when there is none. -/
theorem C60_get (s : Sch) (d : List (Dir Text)) (hd : s.directives = d.map ascText) (h : ∀ x ∈ d, AscOk x) (p : Str) :
    ascGet s p = value p d := by
  obtain ⟨h1, h2⟩ := asc_find p [] d h
  unfold ascGet
  rw [hd]
  cases hv : value p d with
  | none => rw [h1 hv]; rfl
  | some x =>
    obtain ⟨i, m, e1, e2, _⟩ := h2 x hv
    rw [e1]; simp [e2]

theorem sorted_spec (l : List Str) : (sorted l).Perm l ∧ (sorted l).Pairwise (· ≤ ·) := by
  constructor
  · exact List.mergeSort_perm _ _
  · have := List.pairwise_mergeSort (le := fun a b : Str => decide (a ≤ b))
      (fun a b c h1 h2 => by simp only [decide_eq_true_eq] at *; exact List.le_trans h1 h2)
      (fun a b => by simp only [Bool.or_eq_true, decide_eq_true_eq]; exact List.le_total a b) l
    exact this.imp (fun {a b} hh => by simpa using hh)

theorem line_names (l : Line) (h : l.Ok) : (findIter l.text).map (fun m => upper m.name) = l.items.map (fun i => upper i.name) := by
  have := congrArg (List.map (fun q : Str × Str => upper q.1)) (C60_read l h)
  simpa [List.map_map, Function.comp_def] using this

theorem asc_names (d : List (Dir Text)) (h : ∀ x ∈ d, AscOk x) :
    (d.map ascText).flatMap ascTextNames = (d.flatMap Dir.items).map (fun i => upper i.name) := by
  induction d with
  | nil => rfl
  | cons e d ih =>
    have ih' := ih (fun x hx => h x (by simp [hx]))
    simp only [List.map_cons, List.flatMap_cons, List.map_append, ih']
    congr 1
    have he := h e (by simp)
    cases e with
    | other t =>
      show ascTextNames t = []
      unfold ascTextNames
      rcases he with hc | hc
      · rw [if_pos hc]
      · by_cases hc' : t.type = .comment
        · rw [if_pos hc']
        · rw [if_neg hc', if_neg (by rw [isParam_iff]; exact hc)]
    | params t l =>
      obtain ⟨hc, hl⟩ := he
      show ascTextNames { t with text := l.text } = _
      unfold ascTextNames
      rw [if_neg hc, if_pos (isParam_line l hl)]
      exact line_names l hl

/-- get_all_parameter_names: the names of all definitions in capital letters, sorted. -/
theorem C60_names (s : Sch) (d : List (Dir Text)) (hd : s.directives = d.map ascText) (h : ∀ x ∈ d, AscOk x) :
    (ascNames s).Perm ((d.flatMap Dir.items).map (fun i => upper i.name)) ∧ (ascNames s).Pairwise (· ≤ ·) := by
  unfold ascNames
  rw [hd, asc_names d h]
  exact sorted_spec _

/-- set_parameter of a parameter that is defined: its first definition gets the new text, every other character of every text and
everything else in the schematic stays. -/
theorem C60_set (s : Sch) (d : List (Dir Text)) (hd : s.directives = d.map ascText) (h : ∀ x ∈ d, AscOk x) (p v : Str)
    (hp : value p d ≠ none) : ascSet s p v = .ok ({ s with directives := (update p v d).map ascText }, .updated) := by
  obtain ⟨_, h2⟩ := asc_find p v d h
  obtain ⟨x, hx⟩ := Option.ne_none_iff_exists'.1 hp
  obtain ⟨i, m, e1, _, e3⟩ := h2 x hx
  unfold ascSet
  rw [hd, e1]
  simp only
  rw [e3]

/-- set_parameter of a parameter that is not defined: one directive is appended, at a free place; without a readable SHEET line
nothing is changed. -/
theorem C60_set_new (s : Sch) (d : List (Dir Text)) (hd : s.directives = d.map ascText) (h : ∀ x ∈ d, AscOk x) (p v : Str)
    (hp : value p d = none) :
    (∀ x y, Model.AscInstr.textSpace s = .ok (x, y) → ascSet s p v = .ok ({ s with directives := d.map ascText ++
      [{ x, y, text := ".param ".toList ++ p ++ "=".toList ++ v, size := 2, type := .directive }] }, .added)) ∧
    (∀ e, Model.AscInstr.textSpace s = .error e → ascSet s p v = .error e) := by
  obtain ⟨h1, _⟩ := asc_find p v d h
  unfold ascSet
  rw [hd, h1 hp]
  refine ⟨fun x y e => ?_, fun e he => ?_⟩
  · rw [e]
    have : ".param ".toList ++ p ++ '=' :: v = ".param ".toList ++ p ++ "=".toList ++ v := by simp
    simp only [this]
  · rw [he]

/-! ### Sequences of edits -/

theorem find_assign (p q v : Str) (l : List Item) :
    find q (assign p v l) = if Same q p then (find q l).map (fun _ => v) else find q l := by
  induction l with
  | nil => simp [assign, find]
  | cons i l ih =>
    by_cases h1 : Same i.name p
    · simp only [assign, if_pos h1, find]
      by_cases h2 : Same q p
      · have h3 : Same i.name q := h1.trans h2.symm
        simp [h2, h3]
      · have h3 : ¬ Same i.name q := fun hh => h2 (hh.symm.trans h1)
        simp [h2, h3]
    · simp only [assign, if_neg h1, find, ih]
      by_cases h2 : Same q p
      · have h3 : ¬ Same i.name q := fun hh => h1 (hh.trans h2)
        simp [h2, h3]
      · simp [h2]

theorem find_same (p q : Str) (h : Same q p) (l : List Item) : find q l = find p l := by
  induction l with
  | nil => rfl
  | cons i l ih =>
    simp only [find, ih]
    have : Same i.name q ↔ Same i.name p := ⟨fun a => a.trans h, fun a => a.trans h.symm⟩
    simp only [this]

theorem value_update {α : Type} (p q v : Str) (d : List (Dir α)) :
    value q (update p v d) = if Same q p then (value q d).map (fun _ => v) else value q d := by
  induction d with
  | nil => simp [update, value, find]
  | cons e d ih =>
    cases e with
    | other a =>
      have : ∀ d' : List (Dir α), value q (.other a :: d') = value q d' := by intro d'; simp [value, Dir.items]
      rw [update, this, this, ih]
    | params a l =>
      have hv : ∀ (l' : Line) (d' : List (Dir α)), value q (.params a l' :: d') = (find q l'.items).or (value q d') := by
        intro l' d'; simp only [value, List.flatMap_cons, Dir.items, find_append]
      rw [update]
      by_cases hf : (find p l.items).isSome = true
      · rw [if_pos hf, hv, hv]
        simp only [find_assign]
        by_cases hs : Same q p
        · rw [find_same p q hs]
          obtain ⟨x, hx⟩ := Option.isSome_iff_exists.1 hf
          simp [hs, hx]
        · simp [hs]
      · rw [if_neg hf, hv, hv, ih]
        by_cases hs : Same q p
        · rw [find_same p q hs]
          have : find p l.items = none := by simpa using hf
          simp [hs, this]
        · simp [hs]

theorem assign_ok (p v : Str) (hv : Value v) (l : List Item) (h : ∀ i ∈ l, i.Ok) : ∀ i ∈ assign p v l, i.Ok := by
  induction l with
  | nil => simp [assign]
  | cons i l ih =>
    have hl := ih (fun j hj => h j (by simp [hj]))
    obtain ⟨a, b, c, e, _⟩ := h i (by simp)
    simp only [assign]
    split
    · intro j hj
      rcases List.mem_cons.1 hj with rfl | m
      · exact ⟨a, b, c, e, hv⟩
      · exact h j (by simp [m])
    · intro j hj
      rcases List.mem_cons.1 hj with rfl | m
      · exact h j (by simp)
      · exact hl j m

theorem assign_head (p v : Str) (l : List Item) (i : Item) (h : (assign p v l).head? = some i) :
    ∃ j, l.head? = some j ∧ j.name = i.name := by
  cases l with
  | nil => simp [assign] at h
  | cons j l =>
    refine ⟨j, rfl, ?_⟩
    simp only [assign] at h
    split at h
    · simp only [List.head?_cons, Option.some.injEq] at h; rw [← h]
    · simp only [List.head?_cons, Option.some.injEq] at h; rw [← h]

theorem line_assign_ok (p v : Str) (hv : Value v) (l : Line) (h : l.Ok) : ({ l with items := assign p v l.items } : Line).Ok := by
  refine ⟨h.keyword, assign_ok p v hv _ h.items, ?_, h.rest, h.stop⟩
  intro i hi
  obtain ⟨j, h1, h2⟩ := assign_head p v _ i hi
  rw [← h2]; exact h.first j h1

theorem update_ok (p v : Str) (hv : Value v) (d : List (Dir Text)) (h : ∀ x ∈ d, AscOk x) : ∀ x ∈ update p v d, AscOk x := by
  induction d with
  | nil => simp [update]
  | cons e d ih =>
    have ih' := ih (fun x hx => h x (by simp [hx]))
    have he := h e (by simp)
    cases e with
    | other t =>
      intro x hx
      rcases List.mem_cons.1 hx with rfl | m
      · exact he
      · exact ih' x m
    | params t l =>
      simp only [update]
      split
      · intro x hx
        rcases List.mem_cons.1 hx with rfl | m
        · exact ⟨he.1, line_assign_ok p v hv l he.2⟩
        · exact h x (by simp [m])
      · intro x hx
        rcases List.mem_cons.1 hx with rfl | m
        · exact he
        · exact ih' x m

/-- A new directive as the grammar sees it. -/
def newLine (p v : Str) : Line := ⟨".param".toList, [⟨" ".toList, p, "=".toList, v⟩], []⟩

theorem newLine_text (p v : Str) : (newLine p v).text = ".param ".toList ++ p ++ '=' :: v := by
  simp [newLine, Line.text, Item.text]

theorem newLine_ok (p v : Str) (hp : Name p) (hn : ¬ NumberLike p) (hv : Value v) : (newLine p v).Ok := by
  refine ⟨rfl, ?_, ?_, by simp [newLine], by simp [newLine]⟩
  · intro i hi
    simp only [newLine, List.mem_singleton] at hi
    subst hi
    refine ⟨by simp, ?_, hp, Or.inl ⟨[], [], rfl, by simp [Blank], by simp [Blank]⟩, hv⟩
    intro c hc
    have : c = ' ' := by simpa using hc
    subst this; rfl
  · intro i hi
    simp only [newLine, List.head?_cons, Option.some.injEq] at hi
    subst hi; exact hn

/-- What set_parameter does to the document, in the words of the specification. -/
def ascSetDoc (d : List (Dir Text)) (x y : Int) (p v : Str) : List (Dir Text) :=
  if value p d = none then d ++ [.params { x, y, text := [], size := 2, type := .directive } (newLine p v)] else update p v d

theorem value_set (d : List (Dir Text)) (x y : Int) (p q v : Str) :
    value q (ascSetDoc d x y p v) = if Same q p then some v else value q d := by
  unfold ascSetDoc
  have hsame : Same q p → value q d = value p d := fun hs => find_same p q hs _
  by_cases hn : value p d = none
  · rw [if_pos hn]
    have : ∀ a : Text, value q (d ++ [.params a (newLine p v)]) = (value q d).or (find q (newLine p v).items) := by
      intro a; simp only [value, List.flatMap_append, find_append]; simp [Dir.items]
    rw [this]
    by_cases hs : Same q p
    · rw [if_pos hs, hsame hs, hn]
      have : Same p q := hs.symm
      simp [newLine, find, this]
    · rw [if_neg hs]
      have : ¬ Same p q := fun h => hs h.symm
      simp [newLine, find, this]
  · rw [if_neg hn, value_update]
    by_cases hs : Same q p
    · obtain ⟨z, hz⟩ := Option.ne_none_iff_exists'.1 hn
      rw [if_pos hs, if_pos hs, hsame hs, hz]; rfl
    · rw [if_neg hs, if_neg hs]

/-- Several calls of set_parameter; a call that raises leaves the schematic as it is. -/
def setMany (s : Sch) : List (Str × Str) → Sch
  | [] => s
  | (p, v) :: l => match ascSet s p v with
    | .ok (s', _) => setMany s' l
    | .error _ => setMany s l

/-- The SHEET line of the schematic gives its size. -/
def Sheet (s : Sch) : Prop := ∀ ds : List Text, ∃ x y, Model.AscInstr.textSpace { s with directives := ds } = .ok (x, y)

/-- Reading after any sequence of set_parameter calls: the last value set under that name in any letter case, otherwise what the
file said. -/
theorem C60_history (ops : List (Str × Str)) (hops : ∀ o ∈ ops, Name o.1 ∧ ¬ NumberLike o.1 ∧ Value o.2) :
    ∀ (s : Sch) (d : List (Dir Text)), s.directives = d.map ascText → (∀ x ∈ d, AscOk x) → Sheet s → ∀ q : Str,
      ascGet (setMany s ops) q =
        match ops.reverse.find? (fun o => decide (Same q o.1)) with
        | some o => some o.2
        | none => value q d := by
  induction ops with
  | nil => intro s d hd h _ q; exact C60_get s d hd h q
  | cons o ops ih =>
    intro s d hd h hsheet q
    obtain ⟨p, v⟩ := o
    obtain ⟨hp, hnl, hv⟩ := hops (p, v) (by simp)
    have hops' : ∀ o ∈ ops, Name o.1 ∧ ¬ NumberLike o.1 ∧ Value o.2 := fun o ho => hops o (by simp [ho])
    have step : ∃ (s' : Sch) (c : Change) (d' : List (Dir Text)), ascSet s p v = .ok (s', c) ∧ s'.directives = d'.map ascText ∧ (∀ x ∈ d', AscOk x) ∧
        Sheet s' ∧ ∀ q, value q d' = if Same q p then some v else value q d := by
      obtain ⟨x, y, hxy⟩ := hsheet s.directives
      by_cases hn : value p d = none
      · have hset := (C60_set_new s d hd h p v hn).1 x y hxy
        refine ⟨_, _, ascSetDoc d x y p v, hset, ?_, ?_, ?_, fun q => value_set d x y p q v⟩
        · simp only [ascSetDoc, if_pos hn, List.map_append, List.map_cons, List.map_nil, ascText, newLine_text]
          have : ".param ".toList ++ p ++ "=".toList ++ v = ".param ".toList ++ p ++ '=' :: v := by simp
          rw [this]
        · simp only [ascSetDoc, if_pos hn]
          intro z hz
          rcases List.mem_append.1 hz with m | m
          · exact h z m
          · rw [List.mem_singleton.1 m]
            exact ⟨by simp, newLine_ok p v hp hnl hv⟩
        · intro ds; exact hsheet ds
      · refine ⟨_, _, ascSetDoc d x y p v, C60_set s d hd h p v hn, ?_, ?_, ?_, fun q => value_set d x y p q v⟩
        · simp only [ascSetDoc, if_neg hn]
        · simp only [ascSetDoc, if_neg hn]; exact update_ok p v hv d h
        · intro ds; exact hsheet ds
    obtain ⟨s', c, d', h1, h2, h3, h4, h5⟩ := step
    have := ih hops' s' d' h2 h3 h4 q
    simp only [setMany, h1]
    rw [this]
    simp only [List.reverse_cons, List.find?_append, List.find?_cons, List.find?_nil]
    cases hf : ops.reverse.find? (fun o => decide (Same q o.1)) with
    | some o => simp
    | none =>
      simp only [Option.none_or, h5]
      by_cases hs : Same q p
      · simp [hs]
      · simp [hs]

/-! ### QSPICE documents -/

/-- A text of the document: directives carry the qualifier once. -/
def qText : Dir QText → QText
  | .other t => t
  | .params _ l => ⟨false, qualifier ++ l.text⟩

/-- Other texts are comments, or do not start with .PARAM after any of the three characters of the qualifier. -/
def QOk : Dir QText → Prop
  | .other t => t.comment = true ∨ ¬ ∃ w r : Str, t.text.dropWhile (fun c => c = 'ï' ∨ c = '»' ∨ c = '¿') = w ++ r ∧ upper w = ".PARAM".toList
  | .params _ l => l.Ok

theorem unqualify_line (l : Line) (h : l.Ok) : unqualify (qualifier ++ l.text) = l.text := by
  obtain ⟨w, hk, _, _⟩ := keyword_shape l.kw h.keyword
  have e : l.text = '.' :: (w ++ (l.items.flatMap Item.text ++ l.tail)) := by simp [Line.text, hk]
  rw [e]; rfl

theorem unqualify_eq (s : Str) : unqualify s = s.dropWhile (fun c => c = 'ï' ∨ c = '»' ∨ c = '¿') := by
  unfold unqualify
  congr 1
  funext c
  have : qualifier = ['ï', '»', '¿'] := rfl
  rw [this]
  simp [List.contains_eq_mem]

theorem q_find (p v : Str) : ∀ (d : List (Dir QText)), (∀ x ∈ d, QOk x) →
    (value p d = none → qFind p (d.map qText) = none) ∧
    (∀ x, value p d = some x → ∃ i m, qFind p (d.map qText) = some (i, m) ∧ m.value = x ∧
      (d.map qText).modify i (fun t => { t with text := splice t.text (m.start + qualifier.length) (m.stop + qualifier.length) v }) = (update p v d).map qText) := by
  intro d
  induction d with
  | nil => intro _; exact ⟨fun _ => rfl, fun x hx => by simp [value, find] at hx⟩
  | cons e d ih =>
    intro h
    obtain ⟨ih1, ih2⟩ := ih (fun x hx => h x (by simp [hx]))
    have he := h e (by simp)
    cases e with
    | other t =>
      have hv : value p (.other t :: d) = value p d := by simp [value, Dir.items]
      have hf : qFind p ((.other t :: d : List (Dir QText)).map qText) = (qFind p (d.map qText)).map (fun r => (r.1 + 1, r.2)) := by
        simp only [List.map_cons, qText, qFind]
        rcases he with hc | hc
        · rw [if_pos hc]
        · by_cases hc' : t.comment = true
          · rw [if_pos hc']
          · rw [if_neg hc', if_neg (by rw [isParam_iff, unqualify_eq]; exact hc)]
      rw [hv, hf]
      refine ⟨fun hn => by rw [ih1 hn]; rfl, fun x hx => ?_⟩
      obtain ⟨i, m, h1, h2, h3⟩ := ih2 x hx
      refine ⟨i + 1, m, by rw [h1]; rfl, h2, ?_⟩
      simp only [List.map_cons, List.modify_succ_cons, update, h3]
    | params t l =>
      have hl : l.Ok := he
      have hv : value p (.params t l :: d) = (find p l.items).or (value p d) := by
        simp only [value, List.flatMap_cons, Dir.items, find_append]
      obtain ⟨l1, l2⟩ := line_named l hl p v
      have hf : qFind p ((.params t l :: d : List (Dir QText)).map qText) =
          match named p (findIter l.text) with
          | some m => some (0, m)
          | none => (qFind p (d.map qText)).map (fun r => (r.1 + 1, r.2)) := by
        simp only [List.map_cons, qText, qFind, unqualify_line l hl, Bool.false_eq_true, if_false]
        rw [if_pos (isParam_line l hl)]
        rfl
      rw [hv, hf]
      cases hfl : find p l.items with
      | none =>
        rw [l1 hfl]
        simp only [Option.none_or]
        refine ⟨fun hn => by rw [ih1 hn]; rfl, fun x hx => ?_⟩
        obtain ⟨i, m, h1, h2, h3⟩ := ih2 x hx
        refine ⟨i + 1, m, by rw [h1]; rfl, h2, ?_⟩
        simp only [List.map_cons, List.modify_succ_cons, update, hfl, Option.isSome_none, Bool.false_eq_true, if_false, h3]
      | some y =>
        obtain ⟨m, h1, h2, h3⟩ := l2 y hfl
        rw [h1]
        refine ⟨fun hn => by simp at hn, fun x hx => ?_⟩
        simp only [Option.some_or, Option.some.injEq] at hx
        refine ⟨0, m, rfl, h2.trans hx, ?_⟩
        have hsp : splice (qualifier ++ l.text) (m.start + qualifier.length) (m.stop + qualifier.length) v = qualifier ++ splice l.text m.start m.stop v := by
          unfold splice
          rw [Nat.add_comm m.start, Nat.add_comm m.stop, List.take_length_add_append, List.drop_length_add_append]
          simp
        simp only [List.map_cons, List.modify_zero_cons, update, hfl, Option.isSome_some, if_true, qText, hsp, h3]

/-- The same for QSPICE schematics. -/
theorem C60_qsch_get (d : List (Dir QText)) (h : ∀ x ∈ d, QOk x) (p : Str) : qGet (d.map qText) p = value p d := by
  obtain ⟨h1, h2⟩ := q_find p [] d h
  unfold qGet
  cases hv : value p d with
  | none => rw [h1 hv]; rfl
  | some x =>
    obtain ⟨i, m, e1, e2, _⟩ := h2 x hv
    rw [e1]; simp [e2]

theorem C60_qsch_set (d : List (Dir QText)) (h : ∀ x ∈ d, QOk x) (p v : Str) :
    qSet (d.map qText) p v =
      if value p d = none then (d.map qText ++ [⟨false, "ï»¿.param ".toList ++ p ++ "=".toList ++ v⟩], .added)
      else ((update p v d).map qText, .updated) := by
  obtain ⟨h1, h2⟩ := q_find p v d h
  unfold qSet
  cases hv : value p d with
  | none =>
    rw [h1 hv, if_pos rfl]
    have : qualifier ++ ".param ".toList ++ p ++ '=' :: v = "ï»¿.param ".toList ++ p ++ "=".toList ++ v := by
      simp [qualifier]
    simp only [this]
  | some x =>
    obtain ⟨i, m, e1, _, e3⟩ := h2 x hv
    rw [e1, if_neg (by simp)]
    simp only
    rw [e3]

theorem C60_qsch_names (d : List (Dir QText)) (h : ∀ x ∈ d, QOk x) :
    (qNames (d.map qText)).Perm ((d.flatMap Dir.items).map (fun i => upper i.name)) ∧ (qNames (d.map qText)).Pairwise (· ≤ ·) := by
  unfold qNames
  have : (d.map qText).flatMap qTextNames = (d.flatMap Dir.items).map (fun i => upper i.name) := by
    induction d with
    | nil => rfl
    | cons e d ih =>
      have ih' := ih (fun x hx => h x (by simp [hx]))
      simp only [List.map_cons, List.flatMap_cons, List.map_append, ih']
      congr 1
      have he := h e (by simp)
      cases e with
      | other t =>
        show qTextNames t = []
        unfold qTextNames
        rcases he with hc | hc
        · rw [if_pos hc]
        · by_cases hc' : t.comment = true
          · rw [if_pos hc']
          · rw [if_neg hc', if_neg (by rw [isParam_iff, unqualify_eq]; exact hc)]
      | params t l =>
        have hl : l.Ok := he
        show qTextNames ⟨false, qualifier ++ l.text⟩ = _
        unfold qTextNames
        rw [if_neg (by simp)]
        simp only [unqualify_line l hl]
        rw [if_pos (isParam_line l hl)]
        exact line_names l hl
  rw [this]
  exact sorted_spec _

/-- What set_parameter does to a QSPICE document. -/
def qSetDoc (d : List (Dir QText)) (p v : Str) : List (Dir QText) :=
  if value p d = none then d ++ [.params ⟨false, []⟩ (newLine p v)] else update p v d

theorem q_value_set (d : List (Dir QText)) (p q v : Str) :
    value q (qSetDoc d p v) = if Same q p then some v else value q d := by
  unfold qSetDoc
  have hsame : Same q p → value q d = value p d := fun hs => find_same p q hs _
  by_cases hn : value p d = none
  · rw [if_pos hn]
    have : ∀ a : QText, value q (d ++ [.params a (newLine p v)]) = (value q d).or (find q (newLine p v).items) := by
      intro a; simp only [value, List.flatMap_append, find_append]; simp [Dir.items]
    rw [this]
    by_cases hs : Same q p
    · rw [if_pos hs, hsame hs, hn]
      have : Same p q := hs.symm
      simp [newLine, find, this]
    · rw [if_neg hs]
      have : ¬ Same p q := fun h => hs h.symm
      simp [newLine, find, this]
  · rw [if_neg hn, value_update]
    by_cases hs : Same q p
    · obtain ⟨z, hz⟩ := Option.ne_none_iff_exists'.1 hn
      rw [if_pos hs, if_pos hs, hsame hs, hz]; rfl
    · rw [if_neg hs, if_neg hs]

theorem q_update_ok (p v : Str) (hv : Value v) (d : List (Dir QText)) (h : ∀ x ∈ d, QOk x) : ∀ x ∈ update p v d, QOk x := by
  induction d with
  | nil => simp [update]
  | cons e d ih =>
    have ih' := ih (fun x hx => h x (by simp [hx]))
    have he := h e (by simp)
    cases e with
    | other t =>
      intro x hx
      rcases List.mem_cons.1 hx with rfl | m
      · exact he
      · exact ih' x m
    | params t l =>
      simp only [update]
      split
      · intro x hx
        rcases List.mem_cons.1 hx with rfl | m
        · exact line_assign_ok p v hv l he
        · exact h x (by simp [m])
      · intro x hx
        rcases List.mem_cons.1 hx with rfl | m
        · exact he
        · exact ih' x m

/-- Reading a QSPICE schematic after any sequence of set_parameter calls: the last value set under that name in any letter case,
otherwise what the file said. -/
theorem C60_qsch_history (ops : List (Str × Str)) (hops : ∀ o ∈ ops, Name o.1 ∧ ¬ NumberLike o.1 ∧ Value o.2) :
    ∀ d : List (Dir QText), (∀ x ∈ d, QOk x) → ∀ q : Str,
      qGet (ops.foldl (fun ts o => (qSet ts o.1 o.2).1) (d.map qText)) q =
        match ops.reverse.find? (fun o => decide (Same q o.1)) with
        | some o => some o.2
        | none => value q d := by
  induction ops with
  | nil => intro d h q; exact C60_qsch_get d h q
  | cons o ops ih =>
    intro d h q
    obtain ⟨p, v⟩ := o
    obtain ⟨hp, hnl, hv⟩ := hops (p, v) (by simp)
    have hops' : ∀ o ∈ ops, Name o.1 ∧ ¬ NumberLike o.1 ∧ Value o.2 := fun o ho => hops o (by simp [ho])
    have step : (qSet (d.map qText) p v).1 = (qSetDoc d p v).map qText := by
      rw [C60_qsch_set d h]
      by_cases hn : value p d = none
      · rw [if_pos hn]
        simp only [qSetDoc, if_pos hn, List.map_append, List.map_cons, List.map_nil, qText, newLine_text]
        simp [qualifier]
      · rw [if_neg hn]
        simp only [qSetDoc, if_neg hn]
    have hok : ∀ x ∈ qSetDoc d p v, QOk x := by
      by_cases hn : value p d = none
      · simp only [qSetDoc, if_pos hn]
        intro z hz
        rcases List.mem_append.1 hz with m | m
        · exact h z m
        · rw [List.mem_singleton.1 m]
          exact newLine_ok p v hp hnl hv
      · simp only [qSetDoc, if_neg hn]; exact q_update_ok p v hv d h
    simp only [List.foldl_cons, step]
    rw [ih hops' _ hok q]
    simp only [List.reverse_cons, List.find?_append, List.find?_cons, List.find?_nil]
    cases hf : ops.reverse.find? (fun o => decide (Same q o.1)) with
    | some o => simp
    | none =>
      simp only [Option.none_or, q_value_set]
      by_cases hs : Same q p
      · simp [hs]
      · simp [hs]

example : qGet ([("Rx".toList, "1k".toList), ("y".toList, "{2*Rx}".toList), ("RX".toList, "2k".toList)].foldl
    (fun ts o => (qSet ts o.1 o.2).1) [⟨false, qualifier ++ ".tran 1m".toList⟩]) "rx".toList = some "2k".toList := by
  decide +kernel

/-! ### Examples and limits -/

def exLine : Line := ⟨".Param".toList,
  [⟨" ".toList, "Rload".toList, " = ".toList, "4.7k".toList⟩, ⟨"  ".toList, "gain".toList, "=".toList, "{2*x + 1}".toList⟩,
   ⟨" ".toList, "e1".toList, " ".toList, "1e-3".toList⟩], " ; old".toList⟩

/-- The grammar is met by a line with three parameters, the last named e1 (only the first name must not look like a number). -/
theorem exLine_ok : exLine.Ok := by
  refine ⟨rfl, ?_, ?_, ?_, ?_⟩
  · intro i hi
    simp only [exLine, List.mem_cons, List.not_mem_nil, or_false] at hi
    rcases hi with rfl | rfl | rfl
    · exact ⟨by decide, by unfold Blank; decide, by unfold Name NameChar; decide, Or.inl ⟨" ".toList, " ".toList, rfl, by unfold Blank; decide, by unfold Blank; decide⟩,
        Or.inr (Or.inr ⟨"4.7".toList, "k".toList, rfl, by decide, by unfold NumChar; decide, by decide⟩)⟩
    · exact ⟨by decide, by unfold Blank; decide, by unfold Name NameChar; decide, Or.inl ⟨[], [], rfl, by unfold Blank; decide, by unfold Blank; decide⟩,
        Or.inl ⟨"2*x + 1".toList, rfl, by decide⟩⟩
    · exact ⟨by decide, by unfold Blank; decide, by unfold Name NameChar; decide, Or.inr ⟨by unfold Blank; decide, by decide⟩,
        Or.inr (Or.inr ⟨"1e-3".toList, [], rfl, by decide, by unfold NumChar; decide, by decide⟩)⟩
  · intro i hi
    simp only [exLine, List.head?_cons, Option.some.injEq] at hi
    subst hi
    rintro ⟨c, hc, hn⟩
    have : c = 'R' := by simpa using hc.symm
    subst this; revert hn; unfold NumChar; decide
  · unfold NumChar; decide
  · unfold NameChar; decide

example : (findIter exLine.text).map (fun m => (String.ofList m.name, String.ofList m.value)) =
    [("Rload", "4.7k"), ("gain", "{2*x + 1}"), ("e1", "1e-3")] := by decide +kernel

/-- Not true of the code: a parameter whose name starts with E (or a digit) and stands first is not found: `param` is taken for the
name and the beginning of the name for its value. -/
theorem C60_number_like_witness : (findIter ".param e1=5".toList).map (fun m => (String.ofList m.name, String.ofList m.value)) = [("param", "e1")] := by
  decide +kernel

/-- An empty LTspice schematic. -/
def blankSch : Sch := { sheet := "1 880 680".toList }

example : Sheet blankSch := fun ds => ⟨_, _, rfl⟩

example : ascGet (setMany blankSch [("Rx".toList, "1k".toList), ("y".toList, "{2*Rx}".toList), ("RX".toList, "2k".toList)]) "rx".toList = some "2k".toList := by
  decide +kernel

/-- … so that setting it again and again adds directives, and reading it raises. -/
theorem C60_number_like_never_found :
    ((setMany blankSch [("E1".toList, "5".toList), ("E1".toList, "6".toList)]).directives.map (fun t => String.ofList t.text) =
      [".param E1=5", ".param E1=6"]) ∧
    ascGet (setMany blankSch [("E1".toList, "5".toList), ("E1".toList, "6".toList)]) "E1".toList = none := by
  decide +kernel

/-- Not true of the code for values outside the grammar: of an expression without braces only the first number is read, and only that
is replaced by the next value. -/
theorem C60_bare_expression_witness :
    ascGet (setMany blankSch [("x".toList, "2*y".toList)]) "x".toList = some "2".toList ∧
    (setMany blankSch [("x".toList, "2*y".toList), ("x".toList, "5".toList)]).directives.map (fun t => String.ofList t.text) = [".param x=5*y"] := by
  decide +kernel

/-- Not true of the code: definitions inside a comment at the end of the line are parameters too. -/
theorem C60_comment_witness : (findIter ".param a=1 ; was b=2".toList).map (fun m => (String.ofList m.name, String.ofList m.value)) = [("a", "1"), ("b", "2")] := by
  decide +kernel

/-- Not true of QSPICE directives without the qualifier: the new value is written three characters further on. -/
theorem C60_qsch_unqualified_witness :
    (qSet [⟨false, ".param a=1 b=2".toList⟩] "a".toList "7".toList).1.map (fun t => String.ofList t.text) = [".param a=1 b72"] := by
  decide +kernel

end Props.ParamLine
