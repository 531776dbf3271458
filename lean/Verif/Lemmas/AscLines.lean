import Verif.Lemmas.Asc
/-
Each line written for a schematic is read back as the object it was written for.
-/
namespace Lemmas.AscLines
open Model.Asc Model.PyStr Lemmas.PyStr Lemmas.Asc
open Spec.AscFile hiding Str

theorem steps_append (r : Rd) (a b : List Str) : steps r (a ++ b) = (steps r a).bind (fun r => steps r b) := by
  induction a generalizing r with
  | nil => rfl
  | cons l a ih =>
    rw [List.cons_append, steps, steps]
    cases step r l with
    | none => rfl
    | some r' => exact ih r'

theorem step_wire (r : Rd) (l : Line) (h : l.pattern = []) :
    step r (wireLine l) = some { r with sch := { r.sch with wires := r.sch.wires ++ [l] } } := by
  have hk : kind (wireLine l) = .wire := rfl
  have hw : words (wireLine l) = ["WIRE".toList, showInt l.x1, showInt l.y1, showInt l.x2, showInt l.y2] := by
    rw [wireLine, words_row, words_all]
    intro w hw
    simp only [List.mem_cons, List.not_mem_nil, or_false] at hw
    rcases hw with rfl | rfl | rfl | rfl | rfl
    · exact ⟨by decide, by decide⟩
    all_goals exact word_showInt _
  unfold step
  rw [hk, hw]
  simp only [parseInt_show]
  obtain ⟨x1, y1, x2, y2, p⟩ := l
  subst h
  rfl

theorem step_flag (r : Rd) (t : Text) (h : LabelOk t) :
    step r (flagLine t) = some { r with sch := { r.sch with labels := r.sch.labels ++ [t] } } := by
  have hk : kind (flagLine t) = .flag := rfl
  have hw : words (flagLine t) = ["FLAG".toList, showInt t.x, showInt t.y, t.text] := by
    rw [flagLine, words_row, words_all]
    intro w hw
    simp only [List.mem_cons, List.not_mem_nil, or_false] at hw
    rcases hw with rfl | rfl | rfl | rfl
    · exact ⟨by decide, by decide⟩
    · exact word_showInt _
    · exact word_showInt _
    · exact h.1
  unfold step
  rw [hk, hw]
  simp only [parseInt_show]
  show some _ = some _
  rw [← h.2]

theorem step_version (r : Rd) (v : Str) (h : v ∈ ["4".toList, "4.0".toList, "4.1".toList]) :
    step r (row ["Version".toList, v]) = some { r with sch := { r.sch with version := v } } := by
  simp only [List.mem_cons, List.not_mem_nil, or_false] at h
  rcases h with rfl | rfl | rfl <;> rfl

theorem step_sheet (r : Rd) (v : Str) (h : Trimmed v) :
    step r (row ["SHEET".toList, v]) = some { r with sch := { r.sch with sheet := v } } := by
  have hk : kind (row ["SHEET".toList, v]) = .sheet := rfl
  have hd : (row ["SHEET".toList, v]).drop 6 = v := rfl
  unfold step
  rw [hk]
  simp only
  rw [hd, strip_trimmed h]

/-! ### Texts -/

theorem takeInt_show (n : Int) (r : Str) : takeInt (showInt n ++ ' ' :: r) = some (n, ' ' :: r) := by
  have tw : ∀ (d : Str), (∀ c ∈ d, c.isDigit = true) →
      (d ++ ' ' :: r).takeWhile Char.isDigit = d ∧ (d ++ ' ' :: r).dropWhile Char.isDigit = ' ' :: r := by
    intro d hd
    induction d with
    | nil => simp
    | cons c d ih =>
      have := ih (fun e he => hd e (List.mem_cons_of_mem _ he))
      simp [hd c List.mem_cons_self, this]
  cases n with
  | ofNat n =>
    obtain ⟨h1, h2⟩ := tw (showNat n) (showNat_digits n)
    have hne := showNat_ne n
    unfold takeInt
    simp only [showInt]
    split
    · rename_i d hq
      cases hs : showNat n with
      | nil => exact absurd hs hne
      | cons c s =>
        rw [hs, List.cons_append] at hq
        have hc := showNat_digits n c (by rw [hs]; exact List.mem_cons_self)
        rw [(List.cons.inj hq).1] at hc
        exact absurd hc (by decide)
    · rw [h1, h2, if_neg hne]
      simp [showNat, Nat.ofDigitChars_ten_toDigits]
  | negSucc n =>
    obtain ⟨h1, h2⟩ := tw (showNat (n + 1)) (showNat_digits _)
    unfold takeInt
    simp only [showInt, List.cons_append]
    rw [h1, h2, if_neg (showNat_ne _)]
    simp only [showNat, Nat.ofDigitChars_ten_toDigits]
    rfl

theorem takeBlanks_lit (r : Str) (h : ∀ c, r.head? = some c → isSpace c = false) : takeBlanks (' ' :: r) = some r := by
  show (if isSpace ' ' = true then some (r.dropWhile isSpace) else none) = some r
  rw [if_pos (by decide)]
  exact congrArg some (lstrip_head h)

/-- The alignment word, without the V of vertical texts. -/
def alignWord (t : Text) : Str := alignGet { t with angle := 0 }

theorem alignGet_horizontal (t : Text) (h : t.angle = 0) : alignGet t = alignWord t := by
  obtain ⟨x, y, tx, sz, ty, ho, ve, an, vi⟩ := t
  simp only at h
  subst h
  rfl

theorem takeAlign_word (t : Text) (r : Str) : takeAlign (alignWord t ++ r) = some (alignWord t, r) := by
  obtain ⟨x, y, tx, sz, ty, ho, ve, an, vi⟩ := t
  cases vi <;> cases ho <;> cases ve <;> rfl

theorem alignWord_head (t : Text) (r : Str) : ∀ c, (alignWord t ++ r).head? = some c → isSpace c = false ∧ c ≠ 'V' ∧ c ≠ 'v' := by
  obtain ⟨x, y, tx, sz, ty, ho, ve, an, vi⟩ := t
  cases vi <;> cases ho <;> cases ve <;> (intro c hc; obtain rfl := Option.some.inj hc; decide)

theorem alignSet_get (t : Text) (h : Aligned t) (ha : t.angle = 0 ∨ t.angle = 90) (b : Text)
    (hb : b = { t with hor := .left, ver := .center, angle := 0, visible := true }) : alignSet b (alignGet t) = some t := by
  subst hb
  obtain ⟨x, y, tx, sz, ty, ho, ve, an, vi⟩ := t
  obtain ⟨h1, h2⟩ := h
  simp only at h1 h2 ha
  rcases ha with rfl | rfl <;> cases vi <;> cases ho <;> cases ve <;> simp at h1 h2 <;> rfl

theorem showInt_size (n : Int) (h : 0 ≤ n) (r : Str) (hr : ∀ c, r.head? = some c → c.isDigit = false) :
    (showInt n ++ r).takeWhile Char.isDigit = showInt n ∧ (showInt n ++ r).dropWhile Char.isDigit = r ∧
    ((Nat.ofDigitChars 10 (showInt n) 0 : Nat) : Int) = n := by
  cases n with
  | ofNat n =>
    have hd := showNat_digits n
    have : ∀ (d : Str), (∀ c ∈ d, c.isDigit = true) → (d ++ r).takeWhile Char.isDigit = d ∧ (d ++ r).dropWhile Char.isDigit = r := by
      intro d hd
      induction d with
      | nil =>
        cases r with
        | nil => simp
        | cons c r => simp [hr c rfl]
      | cons c d ih =>
        have := ih (fun e he => hd e (List.mem_cons_of_mem _ he))
        simp [hd c List.mem_cons_self, this]
    obtain ⟨h1, h2⟩ := this _ hd
    exact ⟨h1, h2, by simp [showInt, showNat, Nat.ofDigitChars_ten_toDigits]⟩
  | negSucc n => omega

theorem textMatch_line (t : Text) (h : DirectiveOk t) :
    textMatch (textLine t) = some (t.x, t.y, alignGet t, t.size, if t.type = .directive then '!' else ';', t.text) := by
  have e : textLine t = "TEXT ".toList ++ (showInt t.x ++ ' ' :: (showInt t.y ++ ' ' :: (alignGet t ++ ' ' ::
      (showInt t.size ++ ' ' :: ((if t.type = .directive then '!' else ';') :: t.text))))) := rfl
  generalize hk : (if t.type = .directive then '!' else ';') = k at e
  have hk' : k = '!' ∨ k = ';' := by split_ifs at hk <;> simp [← hk]
  have hks : isSpace k = false := by rcases hk' with rfl | rfl <;> decide
  have num_head : ∀ (n : Int) (r : Str), ∀ c, (showInt n ++ r).head? = some c → isSpace c = false := by
    intro n r c hc
    cases hs : showInt n with
    | nil => exact absurd hs (showInt_ne n)
    | cons d l =>
      rw [hs] at hc
      obtain rfl : d = c := by simpa using hc
      exact (showInt_props n d (by rw [hs]; exact List.mem_cons_self)).1
  rw [e]
  unfold textMatch
  rw [if_pos (show lower (List.take 5 ("TEXT ".toList ++ _)) = "text ".toList from rfl)]
  have hd : ∀ r : Str, ("TEXT ".toList ++ r).drop 5 = r := fun r => rfl
  simp only [hd, takeInt_show, Option.bind_eq_bind, Option.bind_some]
  rw [takeBlanks_lit _ (num_head _ _)]
  simp only [Option.bind_some, takeInt_show]
  rw [alignGet_horizontal t h.angle]
  have ah := alignWord_head t (' ' :: (showInt t.size ++ ' ' :: k :: t.text))
  rw [takeBlanks_lit _ (fun c hc => (ah c hc).1)]
  simp only [Option.bind_some]
  rw [if_neg, takeAlign_word]
  · simp only [Option.bind_some]
    obtain ⟨s1, s2, s3⟩ := showInt_size t.size h.size (' ' :: k :: t.text) (by intro c hc; obtain rfl := Option.some.inj hc; decide)
    rw [s1, s2, s3]
    rw [if_neg (by rintro (hh | hh); exact absurd hh (by decide); exact showInt_ne _ hh)]
    have : (' ' :: k :: t.text).dropWhile isSpace = k :: t.text := by
      rw [List.dropWhile_cons_of_pos (by decide), List.dropWhile_cons_of_neg (by simp [hks])]
    rw [this]
    simp only
    rw [if_pos hk']
  · rintro (hh | hh)
    · exact (ah _ hh).2.1 rfl
    · exact (ah _ hh).2.2 rfl

theorem step_text (r : Rd) (t : Text) (h : DirectiveOk t) :
    step r (textLine t) = some { r with sch := { r.sch with directives := r.sch.directives ++ [t] } } := by
  have hk : kind (textLine t) = .text := rfl
  unfold step
  rw [hk]
  show readText r (textLine t) = _
  unfold readText
  rw [textMatch_line t h]
  simp only
  have hc : (if (if t.type = .directive then '!' else ';') = '!' then TextType.directive else TextType.comment) = t.type := by
    rcases h.type with e | e <;> rw [e] <;> rfl
  rw [hc, strip_trimmed h.text, alignSet_get t h.aligned (Or.inl h.angle)]
  · rfl
  · obtain ⟨x, y, tx, sz, ty, ho, ve, an, vi⟩ := t
    rfl

/-! ### Figures -/

theorem step_line (r : Rd) (l : Line) (h : PatternOk l.pattern) :
    step r (lineLine l) = some { r with sch := { r.sch with lines := r.sch.lines ++ [l] } } := by
  have hk : kind (lineLine l) = .figure := rfl
  have hp : "LINE".toList.isPrefixOf (lineLine l) = true := rfl
  have hw : words (lineLine l) = ["LINE".toList, "Normal".toList, showInt l.x1, showInt l.y1, showInt l.x2, showInt l.y2] ++
      if l.pattern = [] then [] else [l.pattern] := by
    rw [lineLine, words_row, words_all]
    intro w hw
    rcases List.mem_append.1 hw with hw | hw
    · simp only [List.mem_cons, List.not_mem_nil, or_false] at hw
      rcases hw with rfl | rfl | rfl | rfl | rfl | rfl
      · exact ⟨by decide, by decide⟩
      · exact ⟨by decide, by decide⟩
      all_goals exact word_showInt _
    · rcases h with h | h
      · rw [if_pos h] at hw; cases hw
      · rw [if_neg h.1] at hw
        obtain rfl := List.mem_singleton.1 hw
        exact h
  unfold step
  rw [hk]
  show readFigure r (lineLine l) = _
  unfold readFigure
  rw [hp, hw]
  obtain ⟨x1, y1, x2, y2, p⟩ := l
  rcases h with h | h
  · simp only at h
    subst h
    simp [parseInt_show]
  · have := h.1
    simp only at this
    simp [this, parseInt_show]

theorem step_shape (r : Rd) (s : Shape) (h : ShapeOk s) :
    step r (shapeLine s) = some { r with sch := { r.sch with shapes := r.sch.shapes ++ [s] } } := by
  obtain ⟨name, points, p⟩ := s
  obtain ⟨hp, hs⟩ := h
  simp only at hp hs
  have hpat : ∀ w ∈ (if p = [] then [] else [p] : List Str), Word w := by
    intro w hw
    rcases hp with h | h
    · rw [if_pos h] at hw; cases hw
    · rw [if_neg h.1] at hw
      obtain rfl := List.mem_singleton.1 hw
      exact h
  have hpts : ∀ w ∈ points.flatMap (fun p => [showInt p.1, showInt p.2]), Word w := by
    intro w hw
    obtain ⟨q, _, hq⟩ := List.mem_flatMap.1 hw
    simp only [List.mem_cons, List.not_mem_nil, or_false] at hq
    rcases hq with rfl | rfl <;> exact word_showInt _
  have hw : ∀ n : Str, n = name → Word n → words (shapeLine ⟨name, points, p⟩) =
      [n, "Normal".toList] ++ points.flatMap (fun p => [showInt p.1, showInt p.2]) ++ if p = [] then [] else [p] := by
    intro n hn hn'
    subst hn
    rw [shapeLine, words_row, words_all]
    intro w hw
    rcases List.mem_append.1 hw with hw | hw
    · rcases List.mem_append.1 hw with hw | hw
      · simp only [List.mem_cons, List.not_mem_nil, or_false] at hw
        rcases hw with rfl | rfl
        · exact hn'
        · exact ⟨by decide, by decide⟩
      · exact hpts w hw
    · exact hpat w hw
  have two : points.length = 2 → ∃ a b c d, points = [(a, b), (c, d)] := by
    intro hl
    match points, hl with
    | [(a, b), (c, d)], _ => exact ⟨a, b, c, d, rfl⟩
  unfold step
  rcases hs with ⟨hn, hl⟩ | ⟨hn, hl⟩ | ⟨hn, hl⟩
  · obtain ⟨a, b, c, d, rfl⟩ := two hl
    have hw := hw _ hn.symm ⟨by decide, by decide⟩
    subst hn
    have hk : kind (shapeLine ⟨"RECTANGLE".toList, [(a, b), (c, d)], p⟩) = .figure := rfl
    have hpl : "LINE".toList.isPrefixOf (shapeLine ⟨"RECTANGLE".toList, [(a, b), (c, d)], p⟩) = false := rfl
    rw [hk]
    show readFigure r _ = _
    unfold readFigure
    rw [hpl, hw]
    by_cases hpp : p = []
    · subst hpp
      simp [parseInt_show]
    · simp [hpp, parseInt_show]
  · obtain ⟨a, b, c, d, rfl⟩ := two hl
    have hw := hw _ hn.symm ⟨by decide, by decide⟩
    subst hn
    have hk : kind (shapeLine ⟨"CIRCLE".toList, [(a, b), (c, d)], p⟩) = .figure := rfl
    have hpl : "LINE".toList.isPrefixOf (shapeLine ⟨"CIRCLE".toList, [(a, b), (c, d)], p⟩) = false := rfl
    rw [hk]
    show readFigure r _ = _
    unfold readFigure
    rw [hpl, hw]
    by_cases hpp : p = []
    · subst hpp
      simp [parseInt_show]
    · simp [hpp, parseInt_show]
  · have four : ∃ a b c d e f g i, points = [(a, b), (c, d), (e, f), (g, i)] := by
      match points, hl with
      | [(a, b), (c, d), (e, f), (g, i)], _ => exact ⟨a, b, c, d, e, f, g, i, rfl⟩
    obtain ⟨a, b, c, d, e, f, g, i, rfl⟩ := four
    have hw := hw _ hn.symm ⟨by decide, by decide⟩
    subst hn
    have hk : kind (shapeLine ⟨"ARC".toList, [(a, b), (c, d), (e, f), (g, i)], p⟩) = .arc := rfl
    rw [hk]
    show readArc r _ = _
    unfold readArc
    rw [hw]
    by_cases hpp : p = []
    · subst hpp
      simp [parseInt_show]
    · simp [hpp, parseInt_show]

end Lemmas.AscLines
