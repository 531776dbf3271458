import Verif.Model.RawAscii
import Verif.Spec.RawAscii
import Verif.Lemmas.PyStr
import Verif.Lemmas.FloatUnit
import Verif.Props.Export
import Verif.Props.RawRead
/-
C73: reading ASCII RAW files.
-/
namespace Props.RawAscii
open Model.RawAscii
open Model.PyStr
open Model.RawFile (Info Plot Err NumType put)
open Model.Export (fileLines)
open Spec.RawAscii

variable {Q V : Type}

/-- Which value a text stands for, for a variable of the given type: a number, or two numbers separated by a comma. -/
inductive Reads (N : Num Q V) : NumType → Str → V → Prop where
  | real (num : NumType) (s : Str) (x : Q) (hn : num ≠ .complex) (hs : N.float s = some x) : Reads N num s (N.store num x)
  | complex (a b : Str) (x y : Q) (ha : ',' ∉ a) (hb : ',' ∉ b) (hx : N.float a = some x) (hy : N.float b = some y) : Reads N .complex (a ++ ',' :: b) (N.cplx x y)

/-- float() ignores blanks in front of a number. -/
def SkipsBlanks (N : Num Q V) : Prop := ∀ a s, Blank a → N.float (a ++ s) = N.float s

theorem blank_space {a : Str} (h : Blank a) : ∀ c ∈ a, isSpace c = true := by
  intro c hc
  rcases h c hc with rfl | rfl | rfl <;> decide

theorem blank_nl {a : Str} (h : Blank a) : '\n' ∉ a := by
  intro hc
  rcases h _ hc with h | h | h <;> exact absurd h (by decide)

theorem visible {s : Str} (h : IsNumber s) : ∀ c ∈ s, isSpace c = false ∧ c ≠ '\n' ∧ c ≠ '\t' := by
  intro c hc
  have h1 := h.ascii c hc
  refine ⟨?_, ?_, ?_⟩
  · unfold isSpace
    have : c.toNat < 127 := h1.2
    have : 33 ≤ c.toNat := h1.1
    simp
    omega
  · rintro rfl; exact absurd h1.1 (by decide)
  · rintro rfl; exact absurd h1.1 (by decide)

theorem strip_empty {a : Str} (h : Blank a) : strip (a ++ ['\n']) = [] := by
  have h1 := Lemmas.FloatUnit.strip_blanks (a := a) (s := []) (b := ['\n']) (blank_space h) (by simp [isSpace])
  simpa [strip, lstrip, rstrip] using h1

/-- The line of a number, stripped. -/
theorem strip_number {l : Line} (h : l.Ok) : strip (l.lead ++ l.number ++ l.trail ++ ['\n']) = l.number := by
  rw [List.append_assoc, Lemmas.FloatUnit.strip_blanks (blank_space h.lead)]
  · exact Lemmas.FloatUnit.strip_visible (fun c hc => (visible h.number c (List.mem_of_mem_head? hc)).1) (fun c hc => (visible h.number c (List.mem_of_mem_getLast? hc)).1)
  · intro c hc
    rcases List.mem_append.mp hc with hc | hc
    · exact blank_space h.trail c hc
    · simp at hc; subst hc; decide

theorem digit_space {s : Str} (h : ∀ c ∈ s, c.isDigit = true) : ∀ c ∈ s, isSpace c = false ∧ c ≠ '\n' ∧ c ≠ '\t' := fun c hc =>
  have := Lemmas.PyStr.digit_props c (h c hc)
  ⟨this.1, this.2.2.1, this.2.1⟩

/-- The first line of a point, stripped. -/
theorem strip_first {k : Nat} {p : Point} (h : p.Ok k) :
    strip (p.pad ++ p.index ++ '\t' :: (p.head.lead ++ p.head.number ++ p.head.trail ++ ['\n'])) = p.index ++ '\t' :: (p.head.lead ++ p.head.number) := by
  have e : p.pad ++ p.index ++ '\t' :: (p.head.lead ++ p.head.number ++ p.head.trail ++ ['\n']) =
      p.pad ++ (p.index ++ '\t' :: (p.head.lead ++ p.head.number)) ++ (p.head.trail ++ ['\n']) := by simp
  rw [e, Lemmas.FloatUnit.strip_blanks (blank_space h.pad)]
  · apply Lemmas.FloatUnit.strip_visible
    · intro c hc
      obtain ⟨d, w, hw⟩ := List.exists_cons_of_ne_nil h.index.1
      rw [hw] at hc
      simp at hc
      subst hc
      exact (digit_space h.index.2 d (by rw [hw]; simp)).1
    · intro c hc
      have : (p.index ++ '\t' :: (p.head.lead ++ p.head.number)) = (p.index ++ '\t' :: p.head.lead) ++ p.head.number := by simp
      rw [this, List.getLast?_append_of_ne_nil _ h.head.number.some] at hc
      exact (visible h.head.number c (List.mem_of_mem_getLast? hc)).1
  · intro c hc
    rcases List.mem_append.mp hc with hc | hc
    · exact blank_space h.head.trail c hc
    · simp at hc; subst hc; decide

theorem splitTab_eq : ∀ (a b : Str), '\t' ∉ a → splitTab (a ++ '\t' :: b) = some (a, b) := by
  intro a
  induction a with
  | nil => intro b _; rfl
  | cons c a ih =>
    intro b h
    simp only [List.mem_cons, not_or] at h
    rw [List.cons_append, splitTab, if_neg (Ne.symm h.1), ih b h.2]
    rfl

theorem parseInt_digits {s : Str} (h1 : s ≠ []) (h2 : ∀ c ∈ s, c.isDigit = true) : parseInt s = some ((Nat.ofDigitChars 10 s 0 : Nat) : Int) := by
  have hs : strip s = s := Lemmas.FloatUnit.strip_visible (fun c hc => (digit_space h2 c (List.mem_of_mem_head? hc)).1)
    (fun c hc => (digit_space h2 c (List.mem_of_mem_getLast? hc)).1)
  obtain ⟨c, w, rfl⟩ := List.exists_cons_of_ne_nil h1
  unfold parseInt
  simp only [hs]
  have hd := h2 c (by simp)
  split
  · rename_i d e
    injection e with e _
    subst e
    exact absurd hd (by decide)
  · rename_i d e
    injection e with e _
    subst e
    exact absurd hd (by decide)
  · rw [if_pos ⟨by simp, List.all_eq_true.mpr h2⟩]

theorem valueText_first {k : Nat} {p : Point} (h : p.Ok k) (point : Nat) :
    valueText point true (p.index ++ '\t' :: (p.head.lead ++ p.head.number)) =
      if Nat.ofDigitChars 10 p.index 0 = point then .ok (p.head.lead ++ p.head.number) else .error .spiceRead := by
  unfold valueText
  rw [if_pos rfl, splitTab_eq _ _ (fun hc => (digit_space h.index.2 _ hc).2.2 rfl)]
  simp only
  rw [parseInt_digits h.index.1 h.index.2]
  simp only [ne_eq, Nat.cast_inj, ite_not]

theorem parse_reads (N : Num Q V) (hN : SkipsBlanks N) {num : NumType} {s : Str} {v : V} (h : Reads N num s v) (a : Str) (ha : Blank a) :
    parseValue N num (a ++ s) = .ok v := by
  cases h with
  | real _ _ x hn hs =>
    unfold parseValue
    rw [if_neg hn, hN a s ha, hs]
  | complex u w x y hu hw hx hy =>
    have ha' : ',' ∉ a ++ u := by
      intro hc
      rcases List.mem_append.mp hc with hc | hc
      · rcases ha _ hc with h | h | h <;> exact absurd h (by decide)
      · exact hu hc
    unfold parseValue
    rw [if_pos rfl, ← List.append_assoc, Lemmas.PyStr.splitOn_cons ',' (a ++ u) w (fun c hc e => ha' (e ▸ hc)),
      Lemmas.PyStr.splitOn_clean ',' w (fun c hc e => hw (e ▸ hc))]
    simp only
    rw [hN a u ha, hx, hy]

/-! ### Lines of the file -/

/-- The lines of the file that hold a line. -/
def rawLines (l : Line) (body : Str) : List Str := l.empties.map (fun e => e ++ ['\n']) ++ [body]

def bodyOf (l : Line) : Str := l.lead ++ l.number ++ l.trail ++ ['\n']
def bodyFirst (p : Point) : Str := p.pad ++ p.index ++ '\t' :: (p.head.lead ++ p.head.number ++ p.head.trail ++ ['\n'])

theorem before_lines (es : List Str) (h : ∀ e ∈ es, Blank e) (rest : Str) :
    fileLines (es.flatMap (fun e => e ++ ['\n']) ++ rest) = es.map (fun e => e ++ ['\n']) ++ fileLines rest := by
  induction es with
  | nil => rfl
  | cons e es ih =>
    rw [show (e :: es).flatMap (fun e => e ++ ['\n']) ++ rest = e ++ '\n' :: (es.flatMap (fun e => e ++ ['\n']) ++ rest) by simp,
      Props.Export.fileLines_line e (blank_nl (h e (by simp))), ih (fun x hx => h x (by simp [hx]))]
    rfl

theorem text_lines (l : Line) (h : l.Ok) (rest : Str) : fileLines (l.text ++ rest) = rawLines l (bodyOf l) ++ fileLines rest := by
  rw [show l.text ++ rest = l.empties.flatMap (fun e => e ++ ['\n']) ++ ((l.lead ++ l.number ++ l.trail) ++ '\n' :: rest) by
      simp [Line.text, Line.before], before_lines _ h.empties, Props.Export.fileLines_line]
  · simp [rawLines, bodyOf]
  · intro hc
    simp only [List.mem_append] at hc
    rcases hc with (hc | hc) | hc
    · exact blank_nl h.lead hc
    · exact (visible h.number _ hc).2.1 rfl
    · exact blank_nl h.trail hc

theorem texts_lines (ls : List Line) (h : ∀ l ∈ ls, l.Ok) (rest : Str) :
    fileLines (ls.flatMap Line.text ++ rest) = ls.flatMap (fun l => rawLines l (bodyOf l)) ++ fileLines rest := by
  induction ls with
  | nil => rfl
  | cons l ls ih =>
    rw [List.flatMap_cons, List.append_assoc, text_lines l (h l (by simp)), ih (fun x hx => h x (by simp [hx]))]
    simp

/-- The lines of a point. -/
def pointLines (p : Point) : List Str := rawLines p.head (bodyFirst p) ++ p.tail.flatMap (fun l => rawLines l (bodyOf l))

theorem point_lines {k : Nat} (p : Point) (h : p.Ok k) (rest : Str) : fileLines (p.text ++ rest) = pointLines p ++ fileLines rest := by
  rw [show p.text ++ rest = p.head.empties.flatMap (fun e => e ++ ['\n']) ++
      ((p.pad ++ p.index ++ '\t' :: (p.head.lead ++ p.head.number ++ p.head.trail)) ++ '\n' :: (p.tail.flatMap Line.text ++ rest)) by
      simp [Point.text, Line.first, Line.before], before_lines _ h.head.empties, Props.Export.fileLines_line, texts_lines _ h.tail]
  · simp [pointLines, rawLines, bodyFirst]
  · intro hc
    simp only [List.mem_append, List.mem_cons] at hc
    rcases hc with (hc | hc) | hc | (hc | hc) | hc
    · exact blank_nl h.pad hc
    · exact (digit_space h.index.2 _ hc).2.1 rfl
    · exact absurd hc (by decide)
    · exact blank_nl h.head.lead hc
    · exact (visible h.head.number _ hc).2.1 rfl
    · exact blank_nl h.head.trail hc

theorem data_lines {k : Nat} (ps : List Point) (h : ∀ p ∈ ps, p.Ok k) (rest : Str) :
    fileLines (dataText ps ++ rest) = ps.flatMap pointLines ++ fileLines rest := by
  induction ps with
  | nil => rfl
  | cons p ps ih =>
    rw [show dataText (p :: ps) ++ rest = p.text ++ (dataText ps ++ rest) by simp [dataText], point_lines p (h p (by simp)),
      ih (fun x hx => h x (by simp [hx]))]
    simp

/-! ### The loops -/

theorem readVars_empties (N : Num Q V) (point : Nat) (es : List Str) (h : ∀ e ∈ es, Blank e) (ls : List Str) (v : Info) (vs : List Info) (first : Bool)
    (d : List (Str × List V)) :
    readVars N point (es.map (fun e => e ++ ['\n']) ++ ls) (v :: vs) first d = readVars N point ls (v :: vs) first d := by
  induction es with
  | nil => rfl
  | cons e es ih =>
    rw [List.map_cons, List.cons_append, readVars, if_pos (strip_empty (h e (by simp)))]
    exact ih (fun x hx => h x (by simp [hx]))

/-- The values assigned at a point. -/
def assignAll (point : Nat) : List Info → List V → List (Str × List V) → List (Str × List V)
  | v :: vs, x :: xs, d => assignAll point vs xs (assign d v.name point x)
  | _, _, d => d

/-- The lines of the variables behind the first. -/
theorem readVars_tail (N : Num Q V) (hN : SkipsBlanks N) (point : Nat) : ∀ (ls : List Line) (vs : List Info) (xs : List V) (d : List (Str × List V)) (rest : List Str),
    vs.length = ls.length → xs.length = ls.length → (∀ l ∈ ls, l.Ok) →
    (∀ (j : Nat) (l : Line) (t : Info) (x : V), ls[j]? = some l → vs[j]? = some t → xs[j]? = some x → Reads N t.num l.number x) →
    readVars N point (ls.flatMap (fun l => rawLines l (bodyOf l)) ++ rest) vs false d = .ok (assignAll point vs xs d, rest) := by
  intro ls
  induction ls with
  | nil =>
    intro vs xs d rest h1 h2 _ _
    rw [List.length_nil, List.length_eq_zero_iff] at h1 h2
    subst h1; subst h2
    simp [readVars, assignAll]
  | cons l ls ih =>
    intro vs xs d rest h1 h2 hok hr
    obtain ⟨v, vs, rfl⟩ := List.exists_cons_of_length_eq_add_one h1
    obtain ⟨x, xs, rfl⟩ := List.exists_cons_of_length_eq_add_one h2
    have hl := hok l (by simp)
    rw [show (l :: ls).flatMap (fun l => rawLines l (bodyOf l)) ++ rest =
      l.empties.map (fun e => e ++ ['\n']) ++ (bodyOf l :: (ls.flatMap (fun l => rawLines l (bodyOf l)) ++ rest)) by simp [rawLines],
      readVars_empties N point _ hl.empties, readVars]
    have hs : strip (bodyOf l) = l.number := strip_number hl
    rw [hs, if_neg hl.number.some]
    have hv : valueText point false l.number = .ok l.number := rfl
    rw [hv]
    simp only
    have hp := parse_reads N hN (hr 0 l v x rfl rfl rfl) [] (by intro c hc; simp at hc)
    rw [List.nil_append] at hp
    rw [hp]
    simp only
    rw [ih vs xs _ rest (by simpa using h1) (by simpa using h2) (fun y hy => hok y (by simp [hy])) (fun j => hr (j + 1))]
    rfl

/-- A whole point. -/
theorem readVars_point (N : Num Q V) (hN : SkipsBlanks N) (point : Nat) (p : Point) (info : List Info) (xs : List V) (hp : p.Ok info.length)
    (hx : xs.length = info.length) (hi : Nat.ofDigitChars 10 p.index 0 = point)
    (hr : ∀ (j : Nat) (s : Str) (t : Info) (x : V), p.numbers[j]? = some s → info[j]? = some t → xs[j]? = some x → Reads N t.num s x)
    (d : List (Str × List V)) (rest : List Str) :
    readVars N point (pointLines p ++ rest) info true d = .ok (assignAll point info xs d, rest) := by
  obtain ⟨v, vs, rfl⟩ := List.exists_cons_of_length_eq_add_one hp.vars.symm
  obtain ⟨x, xs, rfl⟩ := List.exists_cons_of_length_eq_add_one hx
  have hl := hp.vars
  simp only [List.length_cons] at hl hx
  rw [show pointLines p ++ rest = p.head.empties.map (fun e => e ++ ['\n']) ++ (bodyFirst p :: (p.tail.flatMap (fun l => rawLines l (bodyOf l)) ++ rest)) by
    simp [pointLines, rawLines], readVars_empties N point _ hp.head.empties, readVars]
  have hs : strip (bodyFirst p) = p.index ++ '\t' :: (p.head.lead ++ p.head.number) := strip_first hp
  rw [hs, if_neg (by simp), valueText_first hp, if_pos hi]
  simp only
  rw [parse_reads N hN (hr 0 p.head.number v x rfl rfl rfl) _ hp.head.lead]
  simp only
  rw [readVars_tail N hN point p.tail vs xs _ rest (by omega) (by omega) hp.tail]
  · rfl
  · intro j l t y h1 h2 h3
    exact hr (j + 1) l.number t y (by simp [Point.numbers, h1]) (by simpa using h2) (by simpa using h3)

/-- A point with another number is an exception. -/
theorem readVars_wrong (N : Num Q V) (point : Nat) (p : Point) (info : List Info) (hp : p.Ok info.length)
    (hi : Nat.ofDigitChars 10 p.index 0 ≠ point) (d : List (Str × List V)) (rest : List Str) :
    readVars N point (pointLines p ++ rest) info true d = .error .spiceRead := by
  obtain ⟨v, vs, rfl⟩ := List.exists_cons_of_length_eq_add_one hp.vars.symm
  rw [show pointLines p ++ rest = p.head.empties.map (fun e => e ++ ['\n']) ++ (bodyFirst p :: (p.tail.flatMap (fun l => rawLines l (bodyOf l)) ++ rest)) by
    simp [pointLines, rawLines], readVars_empties N point _ hp.head.empties, readVars]
  have hs : strip (bodyFirst p) = p.index ++ '\t' :: (p.head.lead ++ p.head.number) := strip_first hp
  rw [hs, if_neg (by simp), valueText_first hp, if_neg hi]

theorem lookup_assignAll (point : Nat) : ∀ (vs : List Info) (xs : List V) (d : List (Str × List V)), xs.length = vs.length → (vs.map Info.name).Nodup →
    (∀ (j : Nat) (t : Info) (x : V), vs[j]? = some t → xs[j]? = some x →
      (assignAll point vs xs d).lookup t.name = some (((d.lookup t.name).getD []).set point x)) ∧
    (∀ k, k ∉ vs.map Info.name → (assignAll point vs xs d).lookup k = d.lookup k) := by
  intro vs
  induction vs with
  | nil => intro xs d _ _; exact ⟨by intro j t x h; simp at h, by intro k _; cases xs <;> rfl⟩
  | cons v vs ih =>
    intro xs d hx hnd
    obtain ⟨x, xs, rfl⟩ := List.exists_cons_of_length_eq_add_one hx
    simp only [List.map_cons, List.nodup_cons] at hnd
    obtain ⟨h1, h2⟩ := ih xs (assign d v.name point x) (by simpa using hx) hnd.2
    refine ⟨?_, ?_⟩
    · intro j t y hj hy
      cases j with
      | zero =>
        simp only [List.getElem?_cons_zero, Option.some.injEq] at hj hy
        subst hj; subst hy
        rw [assignAll, h2 _ hnd.1, assign, Props.RawRead.lookup_put, if_pos rfl]
      | succ j =>
        rw [List.getElem?_cons_succ] at hj hy
        have hne : t.name ≠ v.name := fun e => hnd.1 (e ▸ List.mem_map_of_mem (List.mem_of_getElem? hj))
        rw [assignAll, h1 j t y hj hy, assign, Props.RawRead.lookup_put, if_neg hne]
    · intro k hk
      simp only [List.map_cons, List.mem_cons, not_or] at hk
      rw [assignAll, h2 k hk.2, assign, Props.RawRead.lookup_put, if_neg hk.1]

/-- A column of which `k` values have been read. -/
def partial' (z : V) (f : Nat → V) (k n : Nat) : List V := (List.range k).map f ++ List.replicate (n - k) z

theorem partial_set (z : V) (f : Nat → V) (k n : Nat) (h : k < n) : (partial' z f k n).set k (f k) = partial' z f (k + 1) n := by
  unfold partial'
  rw [List.set_append_right _ _ (by simp), List.range_succ, show n - k = (n - (k + 1)) + 1 by omega, List.replicate_succ]
  simp

theorem readPoints_all (N : Num Q V) (hN : SkipsBlanks N) (info : List Info) (hnd : (info.map Info.name).Nodup) (n : Nat) (v : Nat → Nat → V) (rest : List Str) :
    ∀ (ps : List Point) (k : Nat) (d : List (Str × List V)), k + ps.length = n → (∀ p ∈ ps, p.Ok info.length) →
    (∀ (i : Nat) (p : Point), ps[i]? = some p → Nat.ofDigitChars 10 p.index 0 = k + i ∧
      ∀ (j : Nat) (s : Str) (t : Info), p.numbers[j]? = some s → info[j]? = some t → Reads N t.num s (v (k + i) j)) →
    (∀ (j : Nat) (t : Info), info[j]? = some t → d.lookup t.name = some (partial' N.zero (fun i => v i j) k n)) →
    ∃ d', readPoints N info ps.length k (ps.flatMap pointLines ++ rest) d = .ok (d', rest) ∧
      ∀ (j : Nat) (t : Info), info[j]? = some t → d'.lookup t.name = some ((List.range n).map (fun i => v i j)) := by
  intro ps
  induction ps with
  | nil =>
    intro k d hk _ _ hd
    refine ⟨d, by simp [readPoints], ?_⟩
    intro j t hj
    simp only [List.length_nil, Nat.add_zero] at hk
    subst hk
    rw [hd j t hj, partial', Nat.sub_self]
    simp
  | cons p ps ih =>
    intro k d hk hok hr hd
    have h0 := hr 0 p rfl
    simp only [Nat.add_zero] at h0
    simp only [List.length_cons] at hk
    have hp := hok p (by simp)
    let xs : List V := (List.range info.length).map (v k)
    have hxs : xs.length = info.length := by simp [xs]
    have e := readVars_point N hN k p info xs hp hxs h0.1 (by
      intro j s t x h1 h2 h3
      have hj : j < info.length := by
        by_contra hc
        rw [List.getElem?_eq_none (by omega)] at h2
        simp at h2
      have : xs[j]? = some (v k j) := by simp [xs, hj]
      rw [this] at h3
      injection h3 with h3
      subst h3
      exact h0.2 j s t h1 h2) d (ps.flatMap pointLines ++ rest)
    rw [List.length_cons, readPoints, List.flatMap_cons, List.append_assoc, e]
    simp only
    refine ih (k + 1) _ (by omega) (fun q hq => hok q (by simp [hq])) ?_ ?_
    · intro i q hi
      have := hr (i + 1) q (by simpa using hi)
      rwa [show k + (i + 1) = k + 1 + i by omega] at this
    · intro j t hj
      have hjl : j < info.length := by
        by_contra hc
        rw [List.getElem?_eq_none (by omega)] at hj
        simp at hj
      rw [(lookup_assignAll k info xs d hxs hnd).1 j t (v k j) hj (by simp [xs, hjl]), hd j t hj, Option.getD_some,
        partial_set N.zero (fun i => v i j) k n (by omega)]

theorem zeros_lookup (z : List V) : ∀ (info : List Info) (d : List (Str × List V)) (t : Info), t ∈ info →
    (info.foldl (fun d i => put d i.name z) d).lookup t.name = some z := by
  have keep : ∀ (info : List Info) (d : List (Str × List V)) (k : Str), d.lookup k = some z → (info.foldl (fun d i => put d i.name z) d).lookup k = some z := by
    intro info
    induction info with
    | nil => intro d k h; exact h
    | cons i info ih =>
      intro d k h
      rw [List.foldl_cons]
      apply ih
      rw [Props.RawRead.lookup_put]
      by_cases hk : k = i.name
      · rw [if_pos hk]
      · rw [if_neg hk]; exact h
  intro info
  induction info with
  | nil => intro d t ht; simp at ht
  | cons i info ih =>
    intro d t ht
    rw [List.foldl_cons]
    rcases List.mem_cons.mp ht with rfl | ht
    · exact keep _ _ _ (by rw [Props.RawRead.lookup_put, if_pos rfl])
    · exact ih _ t ht

/-- The arrays of zeros, when there are no steps to look for. -/
def zeros (N : Num Q V) (p : Plot) : List (Str × List V) := p.info.foldl (fun d i => put d i.name (List.replicate p.nPoints N.zero)) []

theorem prepare_plain [DecidableEq V] (N : Num Q V) (p : Plot) (steps : Option Nat) (h : p.hasAxis = false ∨ steps = none) :
    prepare N p steps = .ok (zeros N p) := by
  unfold prepare zeros
  simp only
  rcases h with h | h
  · rw [h]; simp
  · subst h; simp

theorem finish_tail (d : List (Str × List V)) (rest : Str) (h : Tail rest) : ∃ left, finish d (fileLines rest) = .done d left := by
  obtain ⟨b, hb, rfl | ⟨more, rfl⟩⟩ := h
  · cases rest with
    | nil => exact ⟨[], rfl⟩
    | cons c b =>
      have hl : ∀ (s : Str), '\n' ∉ s → s ≠ [] → fileLines s = [s] := by
        intro s
        induction s with
        | nil => intro _ h; exact absurd rfl h
        | cons c s ih =>
          intro h _
          simp only [List.mem_cons, not_or] at h
          rw [fileLines, if_neg (Ne.symm h.1)]
          cases s with
          | nil => rfl
          | cons d s => rw [ih h.2 (by simp)]
      rw [hl _ (blank_nl hb) (by simp), finish]
      have : strip (c :: b) = [] := by
        have h1 := Lemmas.FloatUnit.strip_blanks (a := c :: b) (s := []) (b := []) (blank_space hb) (by simp)
        simpa [strip, lstrip, rstrip] using h1
      rw [if_pos this]
      exact ⟨_, rfl⟩
  · rw [Props.Export.fileLines_line b (blank_nl hb), finish, if_pos (strip_empty hb)]
    exact ⟨_, rfl⟩

/-- C73: reading an ASCII RAW file. Of a file whose points are numbered 0, 1, 2... and give a number for every variable, reading succeeds and every
variable's column is exactly the numbers written for it, in the order of the points; empty lines, and blanks around the numbers, do not matter. -/
theorem C73_read [DecidableEq V] (N : Num Q V) (hN : SkipsBlanks N) (p : Plot) (steps : Option Nat) (hsteps : p.hasAxis = false ∨ steps = none)
    (hnd : (p.info.map Info.name).Nodup) (ps : List Point) (hn : p.nPoints = ps.length) (hok : ∀ q ∈ ps, q.Ok p.info.length)
    (hindex : ∀ (i : Nat) (q : Point), ps[i]? = some q → Nat.ofDigitChars 10 q.index 0 = i)
    (v : Nat → Nat → V)
    (hv : ∀ (i : Nat) (q : Point) (j : Nat) (s : Str) (t : Info), ps[i]? = some q → q.numbers[j]? = some s → p.info[j]? = some t → Reads N t.num s (v i j))
    (rest : Str) (hrest : Tail rest) :
    ∃ (d : List (Str × List V)) (left : List Str), readAscii N p steps (dataText ps ++ rest) = .done d left ∧
      ∀ (j : Nat) (t : Info), p.info[j]? = some t → d.lookup t.name = some ((List.range p.nPoints).map (fun i => v i j)) := by
  obtain ⟨d, e, hd⟩ := readPoints_all N hN p.info hnd p.nPoints v (fileLines rest) ps 0 (zeros N p) (by omega) hok
    (by intro i q hi; rw [Nat.zero_add]; exact ⟨hindex i q hi, fun j s t h1 h2 => hv i q j s t hi h1 h2⟩)
    (by
      intro j t hj
      rw [zeros, zeros_lookup _ _ _ t (List.mem_of_getElem? hj)]
      simp [partial'])
  obtain ⟨left, hf⟩ := finish_tail d rest hrest
  refine ⟨d, left, ?_, hd⟩
  unfold readAscii
  rw [prepare_plain N p steps hsteps, data_lines ps hok]
  simp only
  rw [hn, e]
  exact hf

/-- Reading the points that are there, then the lines that follow. -/
theorem readPoints_then (N : Num Q V) (hN : SkipsBlanks N) (info : List Info) (rest : List Str) (m : Nat) :
    ∀ (ps : List Point) (k : Nat) (d : List (Str × List V)), (∀ p ∈ ps, p.Ok info.length) →
    (∀ (i : Nat) (p : Point), ps[i]? = some p → Nat.ofDigitChars 10 p.index 0 = k + i ∧
      ∀ (j : Nat) (s : Str) (t : Info), p.numbers[j]? = some s → info[j]? = some t → ∃ x, Reads N t.num s x) →
    ∃ d', readPoints N info (ps.length + m) k (ps.flatMap pointLines ++ rest) d = readPoints N info m (k + ps.length) rest d' := by
  intro ps
  induction ps with
  | nil => intro k d _ _; exact ⟨d, by simp⟩
  | cons p ps ih =>
    intro k d hok hr
    have h0 := hr 0 p rfl
    simp only [Nat.add_zero] at h0
    have hp := hok p (by simp)
    have hnum : p.numbers.length = info.length := by
      have := hp.vars
      simp [Point.numbers]; omega
    have hxs : ∃ xs : List V, xs.length = info.length ∧
        ∀ (j : Nat) (s : Str) (t : Info) (x : V), p.numbers[j]? = some s → info[j]? = some t → xs[j]? = some x → Reads N t.num s x := by
      have gen : ∀ (ns : List Str) (ts : List Info), ns.length = ts.length →
          (∀ (j : Nat) (s : Str) (t : Info), ns[j]? = some s → ts[j]? = some t → ∃ x, Reads N t.num s x) →
          ∃ xs : List V, xs.length = ts.length ∧
            ∀ (j : Nat) (s : Str) (t : Info) (x : V), ns[j]? = some s → ts[j]? = some t → xs[j]? = some x → Reads N t.num s x := by
        intro ns
        induction ns with
        | nil =>
          intro ts h _
          rw [List.length_nil, eq_comm, List.length_eq_zero_iff] at h
          subst h
          exact ⟨[], rfl, by intro j s t x h; simp at h⟩
        | cons s ns ih =>
          intro ts h hall
          obtain ⟨t, ts, rfl⟩ := List.exists_cons_of_length_eq_add_one h.symm
          obtain ⟨x, hx⟩ := hall 0 s t rfl rfl
          obtain ⟨xs, hl, hxs⟩ := ih ts (by simpa using h) (fun j => hall (j + 1))
          refine ⟨x :: xs, by simp [hl], ?_⟩
          intro j s' t' x' h1 h2 h3
          cases j with
          | zero =>
            simp only [List.getElem?_cons_zero, Option.some.injEq] at h1 h2 h3
            subst h1; subst h2; subst h3; exact hx
          | succ j => exact hxs j s' t' x' (by simpa using h1) (by simpa using h2) (by simpa using h3)
      exact gen _ _ hnum h0.2
    obtain ⟨xs, hl, hxs⟩ := hxs
    obtain ⟨d', e⟩ := ih (k + 1) (assignAll k info xs d) (fun q hq => hok q (by simp [hq])) (by
      intro i q hi
      have := hr (i + 1) q (by simpa using hi)
      rwa [show k + (i + 1) = k + 1 + i by omega] at this)
    refine ⟨d', ?_⟩
    rw [List.length_cons, show ps.length + 1 + m = (ps.length + m) + 1 by omega, readPoints, List.flatMap_cons, List.append_assoc,
      readVars_point N hN k p info xs hp hl h0.1 hxs]
    simp only
    rw [e, show k + 1 + ps.length = k + (ps.length + 1) by omega]

/-- C73: a file that stops before its last point is an exception, not a short or zero-filled plot. -/
theorem C73_truncated [DecidableEq V] (N : Num Q V) (hN : SkipsBlanks N) (p : Plot) (steps : Option Nat) (hsteps : p.hasAxis = false ∨ steps = none)
    (hne : p.info ≠ []) (ps : List Point) (hn : ps.length < p.nPoints) (hok : ∀ q ∈ ps, q.Ok p.info.length)
    (hindex : ∀ (i : Nat) (q : Point), ps[i]? = some q → Nat.ofDigitChars 10 q.index 0 = i)
    (hv : ∀ (i : Nat) (q : Point) (j : Nat) (s : Str) (t : Info), ps[i]? = some q → q.numbers[j]? = some s → p.info[j]? = some t → ∃ x, Reads N t.num s x)
    (empties : List Str) (he : ∀ e ∈ empties, Blank e) :
    readAscii N p steps (dataText ps ++ empties.flatMap (fun e => e ++ ['\n'])) = .raised .spiceRead := by
  obtain ⟨m, hm⟩ : ∃ m, p.nPoints = ps.length + (m + 1) := ⟨p.nPoints - ps.length - 1, by omega⟩
  obtain ⟨d', e⟩ := readPoints_then N hN p.info (fileLines (empties.flatMap (fun e => e ++ ['\n']))) (m + 1) ps 0 (zeros N p) hok
    (by intro i q hi; rw [Nat.zero_add]; exact ⟨hindex i q hi, fun j s t h1 h2 => hv i q j s t hi h1 h2⟩)
  have hl := before_lines empties he []
  rw [List.append_nil, show fileLines [] = [] from rfl] at hl
  obtain ⟨v, vs, hi⟩ := List.exists_cons_of_ne_nil hne
  unfold readAscii
  rw [prepare_plain N p steps hsteps, data_lines ps hok, hm]
  simp only
  rw [e, hl, readPoints, hi, readVars_empties N _ empties he, readVars]

/-- C73: a point out of sequence (another number than the one expected) is an exception. -/
theorem C73_out_of_sequence [DecidableEq V] (N : Num Q V) (hN : SkipsBlanks N) (p : Plot) (steps : Option Nat) (hsteps : p.hasAxis = false ∨ steps = none)
    (ps : List Point) (hn : ps.length < p.nPoints) (hok : ∀ q ∈ ps, q.Ok p.info.length)
    (hindex : ∀ (i : Nat) (q : Point), ps[i]? = some q → Nat.ofDigitChars 10 q.index 0 = i)
    (hv : ∀ (i : Nat) (q : Point) (j : Nat) (s : Str) (t : Info), ps[i]? = some q → q.numbers[j]? = some s → p.info[j]? = some t → ∃ x, Reads N t.num s x)
    (bad : Point) (hbad : bad.Ok p.info.length) (hb : Nat.ofDigitChars 10 bad.index 0 ≠ ps.length) (rest : Str) :
    readAscii N p steps (dataText ps ++ (bad.text ++ rest)) = .raised .spiceRead := by
  obtain ⟨m, hm⟩ : ∃ m, p.nPoints = ps.length + (m + 1) := ⟨p.nPoints - ps.length - 1, by omega⟩
  obtain ⟨d', e⟩ := readPoints_then N hN p.info (fileLines (bad.text ++ rest)) (m + 1) ps 0 (zeros N p) hok
    (by intro i q hi; rw [Nat.zero_add]; exact ⟨hindex i q hi, fun j s t h1 h2 => hv i q j s t hi h1 h2⟩)
  unfold readAscii
  rw [prepare_plain N p steps hsteps, data_lines ps hok, hm]
  simp only
  rw [e, point_lines bad hbad, readPoints, readVars_wrong N _ bad p.info hbad (by omega)]

/-- C73 limit: a line that is not empty right behind the data - the header of a second plot - makes the reader go round for ever. -/
theorem C73_second_plot_hangs [DecidableEq V] (N : Num Q V) (hN : SkipsBlanks N) (p : Plot) (steps : Option Nat) (hsteps : p.hasAxis = false ∨ steps = none)
    (ps : List Point) (hn : p.nPoints = ps.length) (hok : ∀ q ∈ ps, q.Ok p.info.length)
    (hindex : ∀ (i : Nat) (q : Point), ps[i]? = some q → Nat.ofDigitChars 10 q.index 0 = i)
    (hv : ∀ (i : Nat) (q : Point) (j : Nat) (s : Str) (t : Info), ps[i]? = some q → q.numbers[j]? = some s → p.info[j]? = some t → ∃ x, Reads N t.num s x)
    (line more : Str) (hl : IsNumber line) : readAscii N p steps (dataText ps ++ (line ++ '\n' :: more)) = .never := by
  obtain ⟨d', e⟩ := readPoints_then N hN p.info (fileLines (line ++ '\n' :: more)) 0 ps 0 (zeros N p) hok
    (by intro i q hi; rw [Nat.zero_add]; exact ⟨hindex i q hi, fun j s t h1 h2 => hv i q j s t hi h1 h2⟩)
  unfold readAscii
  rw [prepare_plain N p steps hsteps, data_lines ps hok, hn]
  simp only
  rw [Nat.add_zero] at e
  rw [e, readPoints]
  simp only
  rw [Props.Export.fileLines_line line (fun hc => (visible hl _ hc).2.1 rfl), finish]
  have := strip_number (l := ⟨[], [], line, []⟩) ⟨by simp, by intro c hc; simp at hc, by intro c hc; simp at hc, hl⟩
  simp only [List.nil_append, List.append_nil] at this
  rw [this, if_neg hl.some]

theorem scan_zeros [DecidableEq V] (z : V) (n : Nat) : ∀ (m i : Nat) (offs : List Nat), offs.length ≤ n →
    Model.RawClasses.scan n z (List.replicate m z) i offs =
      if offs.length + m < n then .error .spiceRead else if n < offs.length + m then .error .index else .ok (offs ++ (List.range m).map (fun j => i + j)) := by
  intro m
  induction m with
  | zero =>
    intro i offs h
    rw [List.replicate_zero, Model.RawClasses.scan]
    by_cases h1 : offs.length < n
    · rw [if_pos (by omega), if_pos (by omega)]
    · rw [if_neg (by omega), if_neg (by omega), if_neg (by omega)]; simp
  | succ m ih =>
    intro i offs h
    rw [List.replicate_succ, Model.RawClasses.scan, if_pos rfl]
    by_cases h1 : offs.length < n
    · rw [if_pos h1, ih (i + 1) (offs ++ [i]) (by simp; omega)]
      simp only [List.length_append, List.length_cons, List.length_nil]
      rw [show offs.length + (0 + 1) + m = offs.length + (m + 1) by omega]
      split_ifs
      · rfl
      · rfl
      · rw [List.range_succ_eq_map]
        simp only [List.map_cons, List.map_map, List.append_assoc, List.cons_append, List.nil_append]
        congr 3
        apply List.map_congr_left
        intro j _
        simp only [Function.comp]
        omega
    · rw [if_neg h1, if_neg (by omega), if_pos (by omega)]

/-- C73 limit: the steps of a stepped file with an axis are looked for before any number is read, in an array of zeros. Unless there are as many steps as points
the file is not read: an IndexError with fewer steps than points (the usual case), a SpiceReadException with more. -/
theorem C73_stepped [DecidableEq V] (N : Num Q V) (p : Plot) (k : Nat) (hax : p.hasAxis = true) (hne : p.info ≠ []) (hp : 0 < p.nPoints) (text : Str) :
    (k < p.nPoints → readAscii N p (some k) text = .raised .index) ∧ (p.nPoints < k → readAscii N p (some k) text = .raised .spiceRead) := by
  obtain ⟨m, hm⟩ : ∃ m, p.nPoints = m + 1 := ⟨p.nPoints - 1, by omega⟩
  have hs : 0 < k → Model.RawClasses.setSteps (List.replicate p.nPoints N.zero) k =
      if 1 + m < k then .error .spiceRead else if k < 1 + m then .error .index else .ok ([0] ++ (List.range m).map (fun j => 1 + j)) := by
    intro hk
    unfold Model.RawClasses.setSteps
    rw [if_neg (by omega), hm, List.replicate_succ]
    simp only
    exact scan_zeros N.zero k m 1 [0] hk
  constructor
  · intro h
    unfold readAscii prepare
    simp only
    rw [if_pos ⟨hax, hne⟩]
    by_cases hk : k = 0
    · subst hk; rfl
    · rw [hs (by omega), if_neg (by omega), if_pos (by omega)]
  · intro h
    unfold readAscii prepare
    simp only
    rw [if_pos ⟨hax, hne⟩, hs (by omega), if_pos (by omega)]

/-! ### A concrete file -/

/-- Integers as numbers. -/
def ints : Num Int Int where
  float := parseInt
  store := fun _ x => x
  cplx := fun x y => 1000 * x + y
  zero := 0

theorem ints_skip : SkipsBlanks ints := by
  intro a s ha
  have : strip (a ++ s) = strip s := by
    have := Lemmas.FloatUnit.strip_blanks (a := a) (s := s) (b := []) (blank_space ha) (by simp)
    simpa using this
  show parseInt (a ++ s) = parseInt s
  unfold parseInt
  rw [this]

def plot : Plot := { info := [⟨"time".toList, .double, "time".toList⟩, ⟨"V(a)".toList, .real, "voltage".toList⟩], hasAxis := true, steppedFlag := false, nPoints := 2, data := [], nVariables := 2, dialect := [], fast := false }
def points : List Point := [⟨[], "0".toList, ⟨[], "\t".toList, "5".toList, []⟩, [⟨[], "\t".toList, "6".toList, "\r".toList⟩]⟩,
  ⟨[], "1".toList, ⟨[[]], "\t".toList, "7".toList, []⟩, [⟨[], "\t".toList, "-8".toList, []⟩]⟩]

/-- The numbers of the file. -/
theorem C73_sample : dataText points = "0\t\t5\n\t6\r\n\n1\t\t7\n\t-8\n".toList ∧
    readAscii ints plot none (dataText points) = .done [("time".toList, [5, 7]), ("V(a)".toList, [6, -8])] [] ∧
    readAscii ints plot none "0\t5\n6\n2\t7\n8\n".toList = .raised .spiceRead ∧
    readAscii ints plot none "0\t5\n6\n1\t7\n".toList = .raised .spiceRead ∧
    readAscii ints plot none "0\t5\n6\n1\t7\n8\nTitle:\n".toList = .never ∧
    readAscii ints plot (some 1) (dataText points) = .raised .index ∧
    readAscii ints { plot with info := [⟨"f".toList, .complex, []⟩, ⟨"V(a)".toList, .complex, []⟩] } none "0\t5,0\n6,1\n1\t7,0\n8,2\n\n".toList =
      .done [("f".toList, [5000, 7000]), ("V(a)".toList, [6001, 8002])] [] := by
  refine ⟨?_, ?_, ?_, ?_, ?_, ?_, ?_⟩ <;> decide +kernel

/-- C73 limit: of two traces with the same name only the values of the last are kept. -/
theorem C73_same_name : readAscii ints { plot with info := [⟨"V(a)".toList, .double, []⟩, ⟨"V(a)".toList, .double, []⟩], hasAxis := false } none
    (dataText points) = .done [("V(a)".toList, [6, -8])] [] := by
  decide +kernel

/-- The hypotheses of C73_read are met by this file: points in sequence, a number for every variable. -/
example : (∀ q ∈ points, q.tail.length + 1 = plot.info.length ∧ (∀ c ∈ q.index, c.isDigit = true) ∧ ∀ s ∈ q.numbers, s ≠ [] ∧ ∀ c ∈ s, 33 ≤ c.toNat ∧ c.toNat < 127) ∧
    (points.map (fun q => Nat.ofDigitChars 10 q.index 0)) = [0, 1] ∧ (points.map (fun q => q.numbers.map parseInt)) = [[some 5, some 6], [some 7, some (-8)]] := by
  decide +kernel

end Props.RawAscii
