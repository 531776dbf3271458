import Verif.Lemmas.FloatUnit
/-
C40: reading numbers in engineering notation.
-/
namespace Props.FloatUnit
open Model.FloatUnit Model.PyStr Lemmas.PyStr Lemmas.FloatUnit
open Spec.EngNumber hiding Str

/-- The text ends with a visible character (or is empty). -/
def EndVisible (u : Str) : Prop := ∀ c ∈ u.getLast?, isSpace c = false

theorem endVisible_append {a u : Str} (h : EndVisible u) (ha : EndVisible a) : EndVisible (a ++ u) := by
  intro c hc
  cases u with
  | nil => rw [List.append_nil] at hc; exact ha c hc
  | cons x t =>
    rw [List.getLast?_append_of_ne_nil _ (by simp)] at hc
    exact h c hc

theorem endVisible_cons {c : Char} {u : Str} (h : EndVisible u) (hc : isSpace c = false) : EndVisible (c :: u) :=
  endVisible_append (a := [c]) h (by intro d hd; simp at hd; rw [← hd]; exact hc)

theorem endVisible_append_cons {a u : Str} {c : Char} (h : EndVisible u) (hc : isSpace c = false) : EndVisible (a ++ c :: u) := by
  intro d hd
  rw [List.getLast?_append_of_ne_nil _ (by simp)] at hd
  exact endVisible_cons h hc d hd

theorem blank_facts {c : Char} (h : c = ' ' ∨ c = '\t') : isBlank c = true ∧ isNumChar c = false ∧ c.toUpper ≠ 'E' := by
  rcases h with rfl | rfl <;> decide

theorem endVisible_number {n : Str} {x : ℚ} (h : Number n x) : EndVisible n := fun _ hc =>
  num_visible ((number_num h).2 _ (List.mem_of_getLast? hc))

/-- The start of the text is the number. -/
theorem parse_number {n r : Str} {x : ℚ} (h : Number n x) (hr : ∀ c ∈ r.head?, isNumChar c = false) (hv : EndVisible r) :
    (r = [] → parse (n ++ r) = scanSuffix n []) ∧
    ∀ c t, r = c :: t → parse (n ++ r) = if c.toUpper = 'E' then
          (pyFloat (n ++ c :: t.takeWhile isExpChar)).map (fun x => (x, (t.dropWhile isExpChar).dropWhile isBlank))
        else scanSuffix n (c :: t) := by
  obtain ⟨hne, hn⟩ := number_num h
  have hs : strip (n ++ r) = n ++ r := by
    apply strip_visible
    · intro c hc
      cases n with
      | nil => exact absurd rfl hne
      | cons y ys => simp at hc; rw [← hc]; exact num_visible (hn y (by simp))
    · exact endVisible_append hv (endVisible_number h)
  have ht := takeWhile_append_stop hn hr
  constructor
  · intro e
    unfold parse
    simp only [hs, ht.1, ht.2, if_neg hne]
    rw [e]
  · intro c t e
    unfold parse
    simp only [hs, ht.1, ht.2, if_neg hne]
    rw [e]

/-- Blanks, then a character that starts a suffix. -/
theorem parse_suffix {n b u : Str} {x : ℚ} {c : Char} (h : Number n x) (hb : Blanks b) (h1 : isNumChar c = false) (h2 : c.toUpper ≠ 'E')
    (h3 : isBlank c = false) (hv : EndVisible (c :: u)) : parse (n ++ (b ++ c :: u)) = scanSuffix n (c :: u) := by
  have hd : (b ++ c :: u).dropWhile isBlank = c :: u :=
    (takeWhile_append_stop (fun c hc => (blank_facts (hb c hc)).1) (by simp [h3])).2
  have hd2 : (c :: u).dropWhile isBlank = c :: u := by simp [h3]
  have hhead : ∀ d ∈ (b ++ c :: u).head?, isNumChar d = false ∧ d.toUpper ≠ 'E' := by
    intro d hd'
    cases b with
    | nil => simp at hd'; rw [← hd']; exact ⟨h1, h2⟩
    | cons y ys => simp at hd'; rw [← hd']; exact (blank_facts (hb y (by simp))).2
  have hv' : EndVisible (b ++ c :: u) := by
    intro d hd'
    rw [List.getLast?_append_of_ne_nil _ (by simp)] at hd'
    exact hv d hd'
  cases hr : b ++ c :: u with
  | nil => simp at hr
  | cons y ys =>
    rw [hr] at hhead hd hv'
    rw [(parse_number h (fun d hd' => (hhead d hd').1) hv').2 y ys rfl, if_neg (hhead y (by simp)).2]
    unfold scanSuffix
    rw [hd, hd2]

theorem scan_mult {n u : Str} {c : Char} {m : ℚ} (h3 : isBlank c = false) (hm : mult c = some m) :
    scanSuffix n (c :: u) = finish n m (if (upper (c :: u)).take 3 = ['M', 'E', 'G'] then u.drop 2 else u) [] := by
  simp [scanSuffix, h3, hm]
theorem scan_none {n u : Str} {c : Char} (h3 : isBlank c = false) (hm : mult c = none) :
    scanSuffix n (c :: u) = if c.toUpper = 'R' then finish n 1 u ['Ω'] else finish n 1 (c :: u) [] := by
  simp [scanSuffix, h3, hm]

theorem finish_plain {n t u : Str} {x m : ℚ} (h : Number n x) (ht : ∀ c ∈ t.head?, c.isDigit = false) :
    finish n m t u = some (x * m, if t.dropWhile isBlank = [] then u else t.dropWhile isBlank) := by
  have := takeWhile_append_stop (p := Char.isDigit) (a := []) (b := t) (by simp) ht
  simp only [List.nil_append] at this
  unfold finish
  simp [this.1, this.2, pyFloat_number h]

/-- C40: blanks around a number make no difference. -/
theorem C40_blanks (a s b : Str) (ha : ∀ c ∈ a, isSpace c = true) (hb : ∀ c ∈ b, isSpace c = true) : parse (a ++ s ++ b) = parse s := by
  unfold parse
  rw [strip_blanks ha hb]

theorem upper_not {c : Char} (h1 : c ≠ 'e') (h2 : c ≠ 'E') (h3 : c ≠ 'r') (h4 : c ≠ 'R') : c.toUpper ≠ 'E' ∧ c.toUpper ≠ 'R' := by
  by_cases hc : c.toNat < 128
  · revert h1 h2 h3 h4
    exact ascii_ind (P := fun c => c ≠ 'e' → c ≠ 'E' → c ≠ 'r' → c ≠ 'R' → c.toUpper ≠ 'E' ∧ c.toUpper ≠ 'R') (by decide) c hc
  · rw [toUpper_big c (by omega)]; exact ⟨h2, h4⟩

/-- C40: a decimal number, alone or followed by a unit (with or without blanks between), is read as this number with this unit. -/
theorem C40_plain (n b u : Str) (x : ℚ) (h : Number n x) (hb : Blanks b) (hu : UnitText u) (hbu : u = [] → b = []) (hv : EndVisible u) :
    parse (n ++ b ++ u) = some (x, u) := by
  rw [List.append_assoc]
  cases u with
  | nil =>
    rw [hbu rfl, List.nil_append, (parse_number h (by simp) hv).1 rfl]
    simp only [scanSuffix, List.dropWhile_nil]
    rw [finish_plain h (by simp)]
    simp
  | cons c t =>
    obtain ⟨g1, g2, g3, g4, g5, g6, g7, g8, g9, g10, g11⟩ := hu c (by simp)
    have hup := upper_not g8 g9 g10 g11
    have hnum : isNumChar c = false := by simp [isNumChar, g1, g3, g4, g5]
    have hbl : isBlank c = false := by simp [isBlank, g6, g7]
    rw [parse_suffix h hb hnum hup.1 hbl hv, scan_none hbl (by rw [power_mult, g2]; rfl), if_neg hup.2, finish_plain h (by simp [g1])]
    simp [hbl]

/-- The text goes on as `eg` (in any letter case), so that an m before it makes `meg`. -/
def GoesOnEg : Str → Prop
  | a :: b :: _ => a.toUpper = 'E' ∧ b.toUpper = 'G'
  | _ => False

theorem meg_iff {c : Char} {u : Str} : (upper (c :: u)).take 3 = ['M', 'E', 'G'] ↔ c.toUpper = 'M' ∧ GoesOnEg u := by
  match u with
  | [] => simp [upper, GoesOnEg]
  | [a] => simp [upper, GoesOnEg]
  | a :: b :: t => simp [upper, GoesOnEg]

theorem power_m {c : Char} {k : ℤ} (h : power c = some k) : c.toUpper = 'M' ↔ c = 'm' ∨ c = 'M' := by
  unfold power at h
  split_ifs at h with h1 h2 h3 h4 h5 h6 h7 h8 h9 h10
  · rcases h1 with rfl | rfl <;> decide
  · rcases h2 with rfl | rfl <;> decide
  · subst h3; decide
  · rcases h4 with rfl | rfl <;> decide
  · subst h5; decide
  · subst h6; decide
  · rcases h7 with rfl | rfl | rfl | rfl <;> decide
  · rcases h8 with rfl | rfl <;> decide
  · rcases h9 with rfl | rfl <;> decide
  · subst h10; decide

/-- C40: a number followed by a multiplier (after any blanks) is read as the number times the power of ten the multiplier stands for,
whatever unit follows: t g k u n p in any letter case, µ, f, %, m for milli and M for mega. -/
theorem C40_multiplier (n b u : Str) (x : ℚ) (c : Char) (k : ℤ) (h : Number n x) (hb : Blanks b) (hk : power c = some k)
    (hm : ¬ ((c = 'm' ∨ c = 'M') ∧ GoesOnEg u)) (hu : ∀ d ∈ u.head?, d.isDigit = false) (hv : EndVisible u) :
    parse (n ++ b ++ c :: u) = some (x * 10 ^ k, u.dropWhile isBlank) := by
  obtain ⟨p1, p2, p3, p4, p5⟩ := power_char hk
  rw [List.append_assoc, parse_suffix h hb p1 p2 p3 (endVisible_cons hv p4),
    scan_mult p3 (m := 10 ^ k) (by rw [power_mult, hk]; rfl), if_neg (by rw [meg_iff, power_m hk]; exact hm), finish_plain h hu]
  split
  · rename_i e; rw [e]
  · rfl

/-- C40: M followed by eg (in any letter case) stands for 10^6. -/
theorem C40_meg (n b u : Str) (x : ℚ) (e g : Char) (h : Number n x) (hb : Blanks b) (he : e = 'e' ∨ e = 'E') (hg : g = 'g' ∨ g = 'G')
    (hu : ∀ d ∈ u.head?, d.isDigit = false) (hv : EndVisible u) :
    parse (n ++ b ++ 'M' :: e :: g :: u) = some (x * 10 ^ (6 : ℤ), u.dropWhile isBlank) := by
  have hmg : GoesOnEg (e :: g :: u) := by
    rcases he with rfl | rfl <;> rcases hg with rfl | rfl <;> exact ⟨by decide, by decide⟩
  have hve : EndVisible ('M' :: e :: g :: u) := by
    apply endVisible_cons _ (by decide)
    apply endVisible_cons _ (by rcases he with rfl | rfl <;> decide)
    exact endVisible_cons hv (by rcases hg with rfl | rfl <;> decide)
  rw [List.append_assoc, parse_suffix h hb (by decide) (by decide) (by decide) hve, scan_mult (by decide) (m := 10 ^ (6 : ℤ)) rfl,
    if_pos (meg_iff.mpr ⟨by decide, hmg⟩)]
  simp only [List.drop_succ_cons, List.drop_zero]
  rw [finish_plain h hu]
  split
  · rename_i e; rw [e]
  · rfl

/-- C40 (finding): written in lower case, meg is read as milli. -/
theorem C40_small_meg (n b u : Str) (x : ℚ) (e g : Char) (h : Number n x) (hb : Blanks b) (he : e = 'e' ∨ e = 'E') (hg : g = 'g' ∨ g = 'G')
    (hu : ∀ d ∈ u.head?, d.isDigit = false) (hv : EndVisible u) :
    parse (n ++ b ++ 'm' :: e :: g :: u) = some (x * 10 ^ (-3 : ℤ), u.dropWhile isBlank) := by
  have hmg : GoesOnEg (e :: g :: u) := by
    rcases he with rfl | rfl <;> rcases hg with rfl | rfl <;> exact ⟨by decide, by decide⟩
  have hve : EndVisible ('m' :: e :: g :: u) := by
    apply endVisible_cons _ (by decide)
    apply endVisible_cons _ (by rcases he with rfl | rfl <;> decide)
    exact endVisible_cons hv (by rcases hg with rfl | rfl <;> decide)
  rw [List.append_assoc, parse_suffix h hb (by decide) (by decide) (by decide) hve, scan_mult (by decide) (m := 10 ^ (-3 : ℤ)) rfl,
    if_pos (meg_iff.mpr ⟨by decide, hmg⟩)]
  simp only [List.drop_succ_cons, List.drop_zero]
  rw [finish_plain h hu]
  split
  · rename_i e; rw [e]
  · rfl

/-- An optional sign. -/
inductive Sign : Str → ℤ → Prop where
  | none : Sign [] 1
  | plus : Sign ['+'] 1
  | minus : Sign ['-'] (-1)

theorem sign_number {s ip : Str} {g : ℤ} (hs : Sign s g) {x : ℚ} (h : Unsigned ip x) : Number (s ++ ip) (g * x) := by
  cases hs with
  | none => simpa using Number.unsigned _ _ h
  | plus => simpa using Number.plus _ _ h
  | minus => simpa using Number.minus _ _ h

theorem finish_inner {s ip d u un : Str} {g : ℤ} {m : ℚ} (hs : Sign s g) (hi : Digits ip) (hd : Digits d) (hdn : d ≠ [])
    (hu : ∀ c ∈ u.head?, c.isDigit = false) :
    finish (s ++ ip) m (d ++ u) un = some (g * decimal ip d * m, if u.dropWhile isBlank = [] then un else u.dropWhile isBlank) := by
  have ht := takeWhile_append_stop (p := Char.isDigit) hd hu
  have hn : Number (s ++ ip ++ '.' :: d) (g * decimal ip d) := by
    rw [List.append_assoc]
    exact sign_number hs (Unsigned.point ip d hi hd (by simp [hdn]))
  unfold finish
  simp only [ht.1, ht.2, if_neg hdn, pyFloat_number hn, Option.map_some]

/-- C40: in forms such as 4k7 the multiplier stands for the decimal point: digits, multiplier, digits give `digits.digits` times the
power of ten. -/
theorem C40_inner_point (s ip d u : Str) (g : ℤ) (c : Char) (k : ℤ) (hs : Sign s g) (hi : Digits ip) (hin : ip ≠ []) (hd : Digits d)
    (hdn : d ≠ []) (hk : power c = some k) (hu : ∀ c ∈ u.head?, c.isDigit = false) (hv : EndVisible u) :
    parse (s ++ ip ++ c :: (d ++ u)) = some (g * decimal ip d * 10 ^ k, u.dropWhile isBlank) := by
  obtain ⟨p1, p2, p3, p4, p5⟩ := power_char hk
  have hve : EndVisible (c :: (d ++ u)) := endVisible_cons (endVisible_append hv (fun c hc =>
    num_visible (digit_num (hd c (List.mem_of_getLast? hc))))) p4
  have hm : ¬ ((c = 'm' ∨ c = 'M') ∧ GoesOnEg (d ++ u)) := by
    rintro ⟨_, hg⟩
    cases d with
    | nil => exact hdn rfl
    | cons y ys =>
      cases hz : ys ++ u with
      | nil => rw [List.cons_append, hz] at hg; exact hg
      | cons z zs =>
        rw [List.cons_append, hz] at hg
        exact (digit_upper (hd y (by simp))).1 hg.1
  have := parse_suffix (b := []) (sign_number hs (Unsigned.int ip hi hin)) (by simp [Blanks]) p1 p2 p3 hve
  rw [List.nil_append] at this
  rw [this, scan_mult p3 (m := 10 ^ k) (by rw [power_mult, hk]; rfl), if_neg (by rw [meg_iff, power_m hk]; exact hm),
    finish_inner hs hi hd hdn hu]
  split
  · rename_i e; rw [e]
  · rfl

/-- C40: in forms such as 2R2 the letter R stands for the decimal point, and without other unit the unit is Ω. -/
theorem C40_inner_R (s ip d u : Str) (g : ℤ) (c : Char) (hs : Sign s g) (hi : Digits ip) (hin : ip ≠ []) (hd : Digits d)
    (hc : c = 'r' ∨ c = 'R') (hu : ∀ c ∈ u.head?, c.isDigit = false) (hv : EndVisible u) :
    parse (s ++ ip ++ c :: (d ++ u)) = some (g * decimal ip d, if u.dropWhile isBlank = [] then ['Ω'] else u.dropWhile isBlank) := by
  have hc' : isNumChar c = false ∧ c.toUpper ≠ 'E' ∧ isBlank c = false ∧ isSpace c = false ∧ c.toUpper = 'R' ∧ power c = none := by
    rcases hc with rfl | rfl <;> decide
  obtain ⟨p1, p2, p3, p4, p5, p6⟩ := hc'
  have hve : EndVisible (c :: (d ++ u)) := endVisible_cons (endVisible_append hv (fun c hc =>
    num_visible (digit_num (hd c (List.mem_of_getLast? hc))))) p4
  have := parse_suffix (b := []) (sign_number hs (Unsigned.int ip hi hin)) (by simp [Blanks]) p1 p2 p3 hve
  rw [List.nil_append] at this
  rw [this, scan_none p3 (by rw [power_mult, p6]; rfl), if_pos p5]
  by_cases hdn : d = []
  · subst hdn
    rw [List.nil_append, finish_plain (sign_number hs (Unsigned.int ip hi hin)) hu]
    simp [decimal]
  · rw [finish_inner hs hi hd hdn hu]
    simp

theorem exponent_digits {s d : Str} {g : ℤ} (hs : Sign s g) (hd : Digits d) (hn : d ≠ []) : exponent (s ++ d) = some (g * (Nat.ofDigitChars 10 d 0 : ℤ)) := by
  have hsg : signed (s ++ d) = (g, d) := by
    cases hs with
    | none => simpa using unsigned_head (Unsigned.int d hd hn)
    | plus => rfl
    | minus => rfl
  unfold exponent
  rw [hsg]
  simp only
  rw [if_pos ⟨hn, by rw [List.all_eq_true]; exact hd⟩]

theorem number_signed {n : Str} {x : ℚ} (h : Number n x) : ∃ (g : ℤ) (t : Str) (y : ℚ), Unsigned t y ∧ x = g * y ∧
    ∀ r : Str, signed (n ++ r) = (g, t ++ r) := by
  cases h with
  | unsigned _ _ h =>
    refine ⟨1, n, x, h, by simp, fun r => ?_⟩
    have hh := unsigned_head h
    cases n with
    | nil => exact absurd rfl (unsigned_num h).1
    | cons c t =>
      simp only [List.cons_append]
      have h1 : c ≠ '-' := by rintro rfl; simp [signed] at hh
      have h2 : c ≠ '+' := by rintro rfl; simp [signed] at hh
      unfold signed
      split
      · rename_i h; simp at h; exact absurd h.1 h1
      · rename_i h; simp at h; exact absurd h.1 h2
      · rfl
  | plus t _ h => exact ⟨1, t, x, h, by simp, fun r => rfl⟩
  | minus t y h => exact ⟨-1, t, y, h, by simp, fun r => rfl⟩

/-- C40: scientific notation: no multiplier is applied, whatever follows is the unit. -/
theorem C40_scientific (n s d u : Str) (x : ℚ) (g : ℤ) (e : Char) (h : Number n x) (he : e = 'e' ∨ e = 'E') (hs : Sign s g) (hd : Digits d)
    (hdn : d ≠ []) (hu : ∀ c ∈ u.head?, isExpChar c = false) (hv : EndVisible u) :
    parse (n ++ e :: (s ++ d ++ u)) = some (x * 10 ^ (g * (Nat.ofDigitChars 10 d 0 : ℤ)), u.dropWhile isBlank) := by
  have he' : isNumChar e = false ∧ e.toUpper = 'E' ∧ isSpace e = false := by rcases he with rfl | rfl <;> decide
  have hsx : ∀ c ∈ s ++ d, isExpChar c = true ∧ isSpace c = false := by
    intro c hc
    rw [List.mem_append] at hc
    rcases hc with hc | hc
    · cases hs with
      | none => simp at hc
      | plus => simp at hc; subst hc; decide
      | minus => simp at hc; subst hc; decide
    · exact ⟨by simp [isExpChar, hd c hc], (digit_props c (hd c hc)).1⟩
  have hve : EndVisible (e :: (s ++ d ++ u)) :=
    endVisible_cons (endVisible_append hv (fun c hc => (hsx c (List.mem_of_getLast? hc)).2)) he'.2.2
  rw [(parse_number h (r := e :: (s ++ d ++ u)) (by simp [he'.1]) hve).2 e _ rfl, if_pos he'.2.1]
  have ht := takeWhile_append_stop (p := isExpChar) (a := s ++ d) (b := u) (fun c hc => (hsx c hc).1) hu
  rw [ht.1, ht.2]
  obtain ⟨g', t, y, hy, rfl, hsg⟩ := number_signed h
  rw [pyFloat_exp he'.2.1 (hsg _) hy (exponent_digits hs hd hdn)]
  rfl

/-- C40: a text that does not start with a digit, point or sign is refused. -/
theorem C40_refused (s : Str) (h : ∀ c ∈ (strip s).head?, isNumChar c = false) : parse s = none := by
  have := takeWhile_append_stop (p := isNumChar) (a := []) (b := strip s) (by simp) h
  unfold parse
  simp only [List.nil_append] at this
  simp [this.1]

/-- C40 (finding): digits after a blank are taken for decimals. -/
theorem C40_blank_point_witness : parse ['5', ' ', '6'] = some (28 / 5, []) := by decide +kernel

example : Number ['-', '4', '.', '7'] (-(47 / 10)) ∧ power 'K' = some 3 ∧ UnitText ['H', 'z'] ∧ ¬ GoesOnEg ['V'] := by
  refine ⟨?_, by decide, ?_, by simp [GoesOnEg]⟩
  · have : Unsigned ['4', '.', '7'] (decimal ['4'] ['7']) := Unsigned.point ['4'] ['7'] (by simp [Digits]) (by simp [Digits]) (by simp)
    have e : decimal ['4'] ['7'] = 47 / 10 := by decide +kernel
    rw [e] at this
    exact Number.minus _ _ this
  · intro c hc; simp at hc; subst hc; decide

example : parse "-4.7 kHz".toList = some (-4700, ['H', 'z']) ∧ parse "4k7".toList = some (4700, []) ∧
    parse "2R2".toList = some (11 / 5, ['Ω']) ∧ parse "33Meg".toList = some (33000000, []) := by decide +kernel

end Props.FloatUnit
