import Verif.Model.Alias
import Verif.Spec.Alias
import Verif.Lemmas.FloatUnit
import Mathlib.Tactic.SplitIfs
import Mathlib.Tactic.Tauto
import Mathlib.Tactic.ByContra
/-
C85: traces of QSPICE files that are defined by formulas.
-/
namespace Props.Alias
open Model.Alias hiding Str
open Spec.Alias
open Model.PyStr (lower contains)

/-! ### The substitutions are rewritings of formulas -/

/-- What may follow a formula inside a formula. -/
def Follow (r : Str) : Prop := ∀ c, r.head? = some c → c = ')' ∨ c = '+' ∨ c = '-' ∨ c = '*'

theorem follow_close (r : Str) : Follow (')' :: r) := by intro c h; simp at h; exact Or.inl h.symm
theorem follow_op (op : Op) (r : Str) : Follow (op.char :: r) := by
  intro c h; simp at h; subst h; cases op <;> simp [Op.char]
theorem follow_nil : Follow [] := by intro c h; cases h

theorem isWord_iff (c : Char) : isWord c = true ↔ c.isAlphanum = true ∨ c = '_' := by
  unfold isWord; simp

theorem name_word {a : Str} (h : Name a) : ∀ c ∈ a, isWord c = true := fun c hc => (isWord_iff c).mpr (h.chars c hc)

/-- A word and what follows it. -/
theorem word_app {a r : Str} (ha : ∀ c ∈ a, isWord c = true) (hr : ∀ c, r.head? = some c → isWord c = false) : word (a ++ r) = (a, r) := by
  unfold word
  induction a with
  | nil =>
    cases r with
    | nil => rfl
    | cons c r => simp [hr c rfl]
  | cons c a ih =>
    have h1 := ih (fun c hc => ha c (by simp [hc]))
    rw [Prod.mk.injEq] at h1
    simp [ha c (by simp), h1.1, h1.2]

theorem not_word {c : Char} (h : c ∈ [')', '+', '-', '*', ',', '(', '.']) : isWord c = false := by
  simp only [List.mem_cons, List.not_mem_nil, or_false] at h
  rcases h with rfl | rfl | rfl | rfl | rfl | rfl | rfl <;> decide

theorem follow_not_word {r : Str} (h : Follow r) : ∀ c, r.head? = some c → isWord c = false := by
  intro c hc
  apply not_word
  rcases h c hc with rfl | rfl | rfl | rfl <;> simp

theorem sub_none {t : Str → Option (Str × Nat)} {c : Char} {s : Str} (h : t (c :: s) = none) : sub t 0 (c :: s) = c :: sub t 0 s := by
  rw [sub, h]

theorem sub_skip (t : Str → Option (Str × Nat)) : ∀ (p r : Str), sub t p.length (p ++ r) = sub t 0 r := by
  intro p
  induction p with
  | nil => intro r; rfl
  | cons c p ih => intro r; exact ih r

theorem sub_some {t : Str → Option (Str × Nat)} {p r x : Str} {n : Nat} (hp : p ≠ []) (h : t (p ++ r) = some (x, n)) (hn : n = p.length) : sub t 0 (p ++ r) = x ++ sub t 0 r := by
  cases p with
  | nil => exact absurd rfl hp
  | cons c p =>
    rw [List.cons_append] at h ⊢
    rw [sub, h]
    dsimp only
    rw [hn, List.length_cons, Nat.add_sub_cancel, sub_skip]

/-- A piece in which nothing matches is copied. -/
theorem sub_copy {t : Str → Option (Str × Nat)} : ∀ (p r : Str), (∀ a c b, p = a ++ c :: b → t (c :: (b ++ r)) = none) → sub t 0 (p ++ r) = p ++ sub t 0 r := by
  intro p
  induction p with
  | nil => intro r _; rfl
  | cons c p ih =>
    intro r h
    rw [List.cons_append, sub_none (h [] c p rfl), ih r (fun a c' b hp => h (c :: a) c' b (by rw [hp]; rfl))]
    rfl

/-- The four rules that look for a letter before a parenthesis. -/
structure Letters (t : Str → Option (Str × Nat)) (ls : List Char) : Prop where
  none : ∀ c s, (c ∉ ls ∨ s.head? ≠ some '(') → t (c :: s) = none

theorem letters1 : Letters try1 ['V'] := by
  constructor
  intro c s h
  unfold try1
  split
  · rename_i x hx; injection hx with h1 h2; subst h1 h2; simp at h
  · rfl

theorem letters2 : Letters try2 ['V'] := by
  constructor
  intro c s h
  unfold try2
  split
  · rename_i x hx; injection hx with h1 h2; subst h1 h2; simp at h
  · rfl

theorem letters3 : Letters try3 ['V'] := by
  constructor
  intro c s h
  unfold try3
  split
  · rename_i x hx; injection hx with h1 h2; subst h1 h2; simp at h
  · rfl

theorem letters4 : Letters try4 ['V', 'I', 'P'] := by
  constructor
  intro c s h
  unfold try4
  split
  · rename_i c' x hx
    injection hx with h1 h2; subst h1 h2
    simp only [List.head?_cons, ne_eq, not_true_eq_false, or_false] at h
    rw [if_neg]
    intro hc
    apply h
    simp only [List.mem_cons, List.not_mem_nil, or_false]
    exact hc
  · rfl

/-- A word is copied. -/
theorem letters_word {t : Str → Option (Str × Nat)} {ls : List Char} (h : Letters t ls) (p r : Str) (hp : ∀ c ∈ p, c ≠ '(') (hr : r.head? ≠ some '(') :
    sub t 0 (p ++ r) = p ++ sub t 0 r := by
  apply sub_copy
  intro a c b hab
  apply h.none
  right
  cases b with
  | nil => exact hr
  | cons d b =>
    rw [List.cons_append, List.head?_cons]
    intro hd
    injection hd with hd
    exact hp d (by rw [hab]; simp) hd

theorem letters_other {t : Str → Option (Str × Nat)} {ls : List Char} (h : Letters t ls) (c : Char) (hc : c ∉ ls) (s : Str) : sub t 0 (c :: s) = c :: sub t 0 s :=
  sub_none (h.none c s (Or.inl hc))

theorem word_noparen {a : Str} (h : ∀ c ∈ a, isWord c = true) : ∀ c ∈ a, c ≠ '(' := by
  intro c hc he
  have := h c hc
  rw [he] at this
  exact absurd this (by decide)

theorem follow_noparen {r : Str} (h : Follow r) : r.head? ≠ some '(' := by
  intro hc
  rcases h _ hc with h | h | h | h <;> exact absurd h (by decide)

theorem op_not (op : Op) : op.char ∉ ['V', 'I', 'P'] ∧ op.char ∉ ['V'] := by cases op <;> decide

/-- The characters of a number. -/
def NumText (t : Str) : Prop := ∀ c ∈ t, c.isDigit = true ∨ c = '.' ∨ c = 'e' ∨ c = 'E' ∨ c = '+' ∨ c = '-'

theorem unsigned_chars {t : Str} {q : ℚ} (h : Spec.EngNumber.Unsigned t q) : t ≠ [] ∧ ∀ c ∈ t, c.isDigit = true ∨ c = '.' := by
  cases h with
  | int _ hd hn => exact ⟨hn, fun c hc => Or.inl (hd c hc)⟩
  | point ip fp hi hf hn =>
    refine ⟨by simp, fun c hc => ?_⟩
    rcases List.mem_append.mp hc with hc | hc
    · exact Or.inl (hi c hc)
    · rcases List.mem_cons.mp hc with hc | hc
      · exact Or.inr hc
      · exact Or.inl (hf c hc)

theorem numeral_chars {t : Str} {q : ℚ} (h : Numeral t q) : t ≠ [] ∧ NumText t := by
  cases h with
  | plain h _ => exact ⟨(unsigned_chars h).1, fun c hc => by have := (unsigned_chars h).2 c hc; tauto⟩
  | exp h hc hs hd hn =>
    refine ⟨by simp, fun x hx => ?_⟩
    rcases List.mem_append.mp hx with hx | hx
    · have := (unsigned_chars h).2 x hx; tauto
    · rcases List.mem_cons.mp hx with hx | hx
      · rw [hx]; tauto
      · rcases List.mem_append.mp hx with hx | hx
        · rcases hs with ⟨rfl, _⟩ | ⟨rfl, _⟩ | ⟨rfl, _⟩
          · cases hx
          · rw [List.mem_singleton] at hx; tauto
          · rw [List.mem_singleton] at hx; tauto
        · exact Or.inl (hd x hx)

theorem num_noparen {t u : Str} {q : ℚ} (h : Numeral t q) (hu : u = [] ∨ ((u = "mho".toList ∨ u = "ohm".toList) ∧ ∀ c, t.getLast? = some c → c.isDigit = true)) :
    ∀ c ∈ t ++ u, c ≠ '(' := by
  intro c hc he
  rw [he] at hc
  rcases List.mem_append.mp hc with hc | hc
  · have := (numeral_chars h).2 _ hc
    revert this; decide
  · rcases hu with rfl | ⟨rfl | rfl, _⟩
    · cases hc
    · revert hc; decide
    · revert hc; decide

/-- The first three rules. -/
def rule1 : Expr → Expr
  | .diff a b => if b = ['0'] then .volt a else .diff a b
  | .bin op l r => .bin op (rule1 l) (rule1 r)
  | .neg e => .neg (rule1 e)
  | e => e

def rule2 : Expr → Expr
  | .diff a b => if a = ['0'] then .neg (.volt b) else .diff a b
  | .bin op l r => .bin op (rule2 l) (rule2 r)
  | .neg e => .neg (rule2 e)
  | e => e

def rule3 : Expr → Expr
  | .diff a b => .bin .sub (.volt a) (.volt b)
  | .bin op l r => .bin op (rule3 l) (rule3 r)
  | .neg e => .neg (rule3 e)
  | e => e

def quoted (c : Char) (a : Str) : Str := c :: '_' :: '_' :: (a ++ ['_', '_'])

def rule4 : Expr → Expr
  | .volt a => .name (quoted 'V' a)
  | .cur c r => .name (quoted c r)
  | .bin op l r => .bin op (rule4 l) (rule4 r)
  | .neg e => .neg (rule4 e)
  | e => e

def rule5 : Expr → Expr
  | .num t _ q => .num t [] q
  | .bin op l r => .bin op (rule5 l) (rule5 r)
  | .neg e => .neg (rule5 e)
  | e => e

/-- A formula made of well-written pieces, in which net 0 may stand anywhere, and only rules see what they handle. -/
inductive Fine (nodiff : Bool) : Expr → Prop
  | num {t u : Str} {q : ℚ} : Numeral t q → u = [] ∨ ((u = "mho".toList ∨ u = "ohm".toList) ∧ ∀ c, t.getLast? = some c → c.isDigit = true) → Fine nodiff (.num t u q)
  | volt {a : Str} : Name a → Fine nodiff (.volt a)
  | diff {a b : Str} : nodiff = false → Name a → Name b → Fine nodiff (.diff a b)
  | cur {c : Char} {r : Str} : c = 'I' ∨ c = 'P' → Name r → Fine nodiff (.cur c r)
  | name {x : Str} : Name x → Fine nodiff (.name x)
  | bin {op : Op} {l r : Expr} : Fine nodiff l → Fine nodiff r → Fine nodiff (.bin op l r)
  | neg {e : Expr} : Fine nodiff e → Fine nodiff (.neg e)

theorem ok_fine {e : Expr} (h : Ok e) : Fine false e := by
  induction h with
  | num h1 h2 => exact .num h1 h2
  | volt h1 _ => exact .volt h1
  | diff h1 h2 _ => exact .diff rfl h1 h2
  | cur h1 h2 => exact .cur h1 h2
  | name h1 => exact .name h1
  | bin _ _ i1 i2 => exact .bin i1 i2
  | neg _ i => exact .neg i

theorem comma_follow (b : Str) (r : Str) : ∀ c, ((',' :: b) ++ r).head? = some c → isWord c = false := by
  intro c h; simp at h; subst h; decide

theorem close_nw (r : Str) : ∀ c, (')' :: r).head? = some c → isWord c = false := by
  intro c h; simp at h; subst h; decide

/-- `V(a)` is copied by the first three rules. -/
theorem copy_volt {t : Str → Option (Str × Nat)} {ls : List Char} (h : Letters t ls) (hls : '(' ∉ ls ∧ ')' ∉ ls) (c : Char) (a r : Str) (ha : ∀ c ∈ a, isWord c = true)
    (hn : t (c :: '(' :: (a ++ ')' :: r)) = none) : sub t 0 (c :: '(' :: (a ++ ')' :: r)) = c :: '(' :: (a ++ ')' :: sub t 0 r) := by
  rw [sub_none hn, letters_other h '(' hls.1, letters_word h a _ (word_noparen ha) (by simp), letters_other h ')' hls.2]

/-- The rewriting of a whole formula, given that of its leaves. -/
theorem sub_expr {t : Str → Option (Str × Nat)} {ls : List Char} (h : Letters t ls) (hls : ∀ c ∈ ['(', ')', '+', '-', '*'], c ∉ ls) (φ : Expr → Expr)
    (hbin : ∀ op l r, φ (.bin op l r) = .bin op (φ l) (φ r)) (hneg : ∀ e, φ (.neg e) = .neg (φ e)) {nd : Bool}
    (hnum : ∀ t u q, φ (.num t u q) = .num t u q) (hname : ∀ x, φ (.name x) = .name x)
    (hvolt : ∀ a r, Name a → Follow r → sub t 0 ((Expr.volt a).text ++ r) = (φ (.volt a)).text ++ sub t 0 r)
    (hdiff : ∀ a b r, nd = false → Name a → Name b → Follow r → sub t 0 ((Expr.diff a b).text ++ r) = (φ (.diff a b)).text ++ sub t 0 r)
    (hcur : ∀ c a r, c = 'I' ∨ c = 'P' → Name a → Follow r → sub t 0 ((Expr.cur c a).text ++ r) = (φ (.cur c a)).text ++ sub t 0 r)
    (e : Expr) (he : Fine nd e) : ∀ r, Follow r → sub t 0 (e.text ++ r) = (φ e).text ++ sub t 0 r := by
  induction he with
  | num h1 h2 =>
    intro r hr
    rw [hnum]
    exact letters_word h _ _ (num_noparen h1 h2) (follow_noparen hr)
  | volt h1 => intro r hr; exact hvolt _ r h1 hr
  | diff h0 h1 h2 => intro r hr; exact hdiff _ _ r h0 h1 h2 hr
  | cur h1 h2 => intro r hr; exact hcur _ _ r h1 h2 hr
  | name h1 =>
    intro r hr
    rw [hname]
    exact letters_word h _ _ (word_noparen (name_word h1)) (follow_noparen hr)
  | @bin op l r' _ _ i1 i2 =>
    intro r hr
    rw [hbin]
    simp only [Expr.text, List.cons_append, List.append_assoc, List.nil_append]
    rw [letters_other h '(' (hls _ (by simp)), i1 _ (follow_op op _),
      letters_other h op.char (hls _ (by cases op <;> simp [Op.char])), i2 _ (follow_close r), letters_other h ')' (hls _ (by simp))]
  | @neg e _ i =>
    intro r hr
    rw [hneg]
    simp only [Expr.text, List.cons_append, List.append_assoc, List.nil_append]
    rw [letters_other h '(' (hls _ (by simp)), letters_other h '-' (hls _ (by simp)), i _ (follow_close r), letters_other h ')' (hls _ (by simp))]

theorem cur_copy {t : Str → Option (Str × Nat)} (h : Letters t ['V']) (c : Char) (a r : Str) (hc : c = 'I' ∨ c = 'P') (ha : Name a) :
    sub t 0 ((Expr.cur c a).text ++ r) = (Expr.cur c a).text ++ sub t 0 r := by
  simp only [Expr.text, List.cons_append, List.append_assoc, List.nil_append]
  apply copy_volt h (by decide) c a r (name_word ha)
  apply h.none
  left
  rcases hc with rfl | rfl <;> decide

theorem sub1_expr (e : Expr) (he : Fine false e) (r : Str) (hr : Follow r) : sub try1 0 (e.text ++ r) = (rule1 e).text ++ sub try1 0 r := by
  apply sub_expr letters1 (by decide) rule1 (fun _ _ _ => rfl) (fun _ => rfl) (fun _ _ _ => rfl) (fun _ => rfl) (nd := false) ?_ ?_ ?_ e he r hr
  · intro a r ha _
    simp only [rule1, Expr.text, List.cons_append, List.append_assoc, List.nil_append]
    apply copy_volt letters1 (by decide) 'V' a r (name_word ha)
    show (if (word (a ++ ')' :: r)).1 = [] then none else _) = none
    rw [word_app (name_word ha) (close_nw r)]
    rw [if_neg ha.ne]
    rfl
  · intro a b r _ ha hb hr
    unfold rule1
    by_cases h0 : b = ['0']
    · rw [if_pos h0, h0]
      apply sub_some (by simp [Expr.text]) (n := 2 + a.length + 3)
      · simp only [Expr.text, List.cons_append, List.append_assoc, List.nil_append]
        show (if (word (a ++ ',' :: '0' :: ')' :: r)).1 = [] then none else _) = _
        rw [word_app (name_word ha) (comma_follow ('0' :: ')' :: r) []|> fun h => by simpa using h)]
        rw [if_neg ha.ne]
        rfl
      · simp [Expr.text]; omega
    · rw [if_neg h0]
      simp only [Expr.text, List.cons_append, List.append_assoc, List.nil_append]
      rw [sub_none, letters_other letters1 '(' (by decide), letters_word letters1 a _ (word_noparen (name_word ha)) (by simp),
        letters_other letters1 ',' (by decide), letters_word letters1 b _ (word_noparen (name_word hb)) (by simp), letters_other letters1 ')' (by decide)]
      show (if (word (a ++ ',' :: (b ++ ')' :: r))).1 = [] then none else _) = _
      rw [word_app (name_word ha) (by intro c h; simp at h; subst h; decide)]
      rw [if_neg ha.ne]
      dsimp only
      split
      · rename_i x hx
        injection hx with _ hx
        exfalso
        cases b with
        | nil => exact hb.ne rfl
        | cons d b =>
          rw [List.cons_append] at hx
          injection hx with h1 hx
          cases b with
          | nil => exact h0 (by rw [h1])
          | cons d2 b =>
            rw [List.cons_append] at hx
            injection hx with h2 hx
            have := name_word hb d2 (by simp)
            rw [h2] at this
            exact absurd this (by decide)
      · rfl
  · intro c a r hc ha _
    exact cur_copy letters1 c a r hc ha

theorem fine1 {e : Expr} (h : Fine false e) : Fine false (rule1 e) := by
  induction h with
  | num h1 h2 => exact .num h1 h2
  | volt h1 => exact .volt h1
  | @diff a b h0 h1 h2 =>
    unfold rule1
    split_ifs
    · exact .volt h1
    · exact .diff h0 h1 h2
  | cur h1 h2 => exact .cur h1 h2
  | name h1 => exact .name h1
  | bin _ _ i1 i2 => exact .bin i1 i2
  | neg _ i => exact .neg i

theorem fine2 {e : Expr} (h : Fine false e) : Fine false (rule2 e) := by
  induction h with
  | num h1 h2 => exact .num h1 h2
  | volt h1 => exact .volt h1
  | @diff a b h0 h1 h2 =>
    unfold rule2
    split_ifs
    · exact .neg (.volt h2)
    · exact .diff h0 h1 h2
  | cur h1 h2 => exact .cur h1 h2
  | name h1 => exact .name h1
  | bin _ _ i1 i2 => exact .bin i1 i2
  | neg _ i => exact .neg i

theorem fine3 {e : Expr} (h : Fine false e) : Fine true (rule3 e) := by
  induction h with
  | num h1 h2 => exact .num h1 h2
  | volt h1 => exact .volt h1
  | diff h0 h1 h2 => exact .bin (.volt h1) (.volt h2)
  | cur h1 h2 => exact .cur h1 h2
  | name h1 => exact .name h1
  | bin _ _ i1 i2 => exact .bin i1 i2
  | neg _ i => exact .neg i

/-- `V(a,b)` is copied when the rule does not match at the V. -/
theorem copy_diff {t : Str → Option (Str × Nat)} (h : Letters t ['V']) (a b r : Str) (ha : Name a) (hb : Name b)
    (hn : t ('V' :: '(' :: (a ++ ',' :: (b ++ ')' :: r))) = none) :
    sub t 0 ('V' :: '(' :: (a ++ ',' :: (b ++ ')' :: r))) = 'V' :: '(' :: (a ++ ',' :: (b ++ ')' :: sub t 0 r)) := by
  rw [sub_none hn, letters_other h '(' (by decide), letters_word h a _ (word_noparen (name_word ha)) (by simp),
    letters_other h ',' (by decide), letters_word h b _ (word_noparen (name_word hb)) (by simp), letters_other h ')' (by decide)]

theorem comma_nw (r : Str) : ∀ c, (',' :: r).head? = some c → isWord c = false := by
  intro c h; simp at h; subst h; decide

theorem sub2_expr (e : Expr) (he : Fine false e) (r : Str) (hr : Follow r) : sub try2 0 (e.text ++ r) = (rule2 e).text ++ sub try2 0 r := by
  apply sub_expr letters2 (by decide) rule2 (fun _ _ _ => rfl) (fun _ => rfl) (fun _ _ _ => rfl) (fun _ => rfl) (nd := false) ?_ ?_ ?_ e he r hr
  · intro a r ha _
    simp only [rule2, Expr.text, List.cons_append, List.append_assoc, List.nil_append]
    apply copy_volt letters2 (by decide) 'V' a r (name_word ha)
    unfold try2
    split
    · rename_i x hx
      exfalso
      injection hx with _ hx
      injection hx with _ hx
      cases a with
      | nil => exact ha.ne rfl
      | cons d a =>
        injection hx with h1 hx
        cases a with
        | nil => injection hx with h2 hx; exact absurd h2 (by decide)
        | cons d2 a =>
          injection hx with h2 hx
          have := name_word ha d2 (by simp)
          rw [h2] at this
          exact absurd this (by decide)
    · rfl
  · intro a b r _ ha hb hr
    unfold rule2
    by_cases h0 : a = ['0']
    · rw [if_pos h0, h0]
      apply sub_some (by simp [Expr.text]) (n := 4 + b.length + 1)
      · simp only [Expr.text, List.cons_append, List.append_assoc, List.nil_append]
        show (if (word (b ++ ')' :: r)).1 = [] then none else _) = _
        rw [word_app (name_word hb) (close_nw r)]
        rw [if_neg hb.ne]
        simp
      · simp [Expr.text]; omega
    · rw [if_neg h0]
      simp only [Expr.text, List.cons_append, List.append_assoc, List.nil_append]
      apply copy_diff letters2 a b r ha hb
      unfold try2
      split
      · rename_i x hx
        exfalso
        injection hx with _ hx
        injection hx with _ hx
        cases a with
        | nil => exact ha.ne rfl
        | cons d a =>
          injection hx with h1 hx
          cases a with
          | nil => exact h0 (by rw [h1])
          | cons d2 a =>
            injection hx with h2 hx
            have := name_word ha d2 (by simp)
            rw [h2] at this
            exact absurd this (by decide)
      · rfl
  · intro c a r hc ha _
    exact cur_copy letters2 c a r hc ha

theorem sub3_expr (e : Expr) (he : Fine false e) (r : Str) (hr : Follow r) : sub try3 0 (e.text ++ r) = (rule3 e).text ++ sub try3 0 r := by
  apply sub_expr letters3 (by decide) rule3 (fun _ _ _ => rfl) (fun _ => rfl) (fun _ _ _ => rfl) (fun _ => rfl) (nd := false) ?_ ?_ ?_ e he r hr
  · intro a r ha _
    simp only [rule3, Expr.text, List.cons_append, List.append_assoc, List.nil_append]
    apply copy_volt letters3 (by decide) 'V' a r (name_word ha)
    show (if (word (a ++ ')' :: r)).1 = [] then none else _) = none
    rw [word_app (name_word ha) (close_nw r)]
    rw [if_neg ha.ne]
    rfl
  · intro a b r _ ha hb hr
    apply sub_some (by simp [Expr.text]) (n := 2 + a.length + 1 + b.length + 1)
    · simp only [Expr.text, List.cons_append, List.append_assoc, List.nil_append]
      show (if (word (a ++ ',' :: (b ++ ')' :: r))).1 = [] then none else _) = _
      rw [word_app (name_word ha) (comma_nw _)]
      rw [if_neg ha.ne]
      show (if (word (b ++ ')' :: r)).1 = [] then none else _) = _
      rw [word_app (name_word hb) (close_nw r)]
      rw [if_neg hb.ne]
      simp [rule3, Expr.text, Op.char]
    · simp [Expr.text]; omega
  · intro c a r hc ha _
    exact cur_copy letters3 c a r hc ha

theorem sub4_expr (e : Expr) (he : Fine true e) (r : Str) (hr : Follow r) : sub try4 0 (e.text ++ r) = (rule4 e).text ++ sub try4 0 r := by
  have key : ∀ (c : Char) (a r : Str), c = 'V' ∨ c = 'I' ∨ c = 'P' → Name a →
      sub try4 0 ((c :: '(' :: (a ++ [')'])) ++ r) = quoted c a ++ sub try4 0 r := by
    intro c a r hc ha
    apply sub_some (by simp) (n := 2 + a.length + 1)
    · simp only [List.cons_append, List.append_assoc, List.nil_append]
      show (if c = 'V' ∨ c = 'I' ∨ c = 'P' then _ else _) = _
      rw [if_pos hc, word_app (name_word ha) (close_nw r)]
      rw [if_neg ha.ne]
      rfl
    · simp; omega
  apply sub_expr letters4 (by decide) rule4 (fun _ _ _ => rfl) (fun _ => rfl) (fun _ _ _ => rfl) (fun _ => rfl) (nd := true) ?_ ?_ ?_ e he r hr
  · intro a r ha _
    exact key 'V' a r (Or.inl rfl) ha
  · intro a b r h; cases h
  · intro c a r hc ha _
    exact key c a r (Or.inr hc) ha

/-! ### Units -/

theorem try5_nodigit {c : Char} {s : Str} (h : c.isDigit = false) : try5 (c :: s) = none := by
  unfold try5
  simp [h]

/-- A run of digits followed by something that is not a unit. -/
theorem try5_run (d s : Str) (hd : ∀ c ∈ d, c.isDigit = true) (hs : ∀ c, s.head? = some c → c.isDigit = false) (hm : s.take 3 ≠ "mho".toList) (ho : s.take 3 ≠ "ohm".toList) :
    try5 (d ++ s) = none := by
  unfold try5
  have h1 : (d ++ s).dropWhile Char.isDigit = s := by
    induction d with
    | nil =>
      cases s with
      | nil => rfl
      | cons c s => simp [hs c rfl]
    | cons c d ih => simp [hd c (by simp), ih (fun c hc => hd c (by simp [hc]))]
  rw [h1]
  dsimp only
  split_ifs with h2 h3
  · rfl
  · rcases h3 with h3 | h3
    · exact absurd h3 hm
    · exact absurd h3 ho
  · rfl

/-- In a name, no digit is followed by a unit, whatever follows the name. -/
theorem hasUnit_run : ∀ (d s : Str), d ≠ [] → (∀ c ∈ d, c.isDigit = true) → hasUnit (d ++ s) = false → "mho".toList.isPrefixOf s = false ∧ "ohm".toList.isPrefixOf s = false := by
  intro d
  induction d with
  | nil => intro s h; exact absurd rfl h
  | cons c d ih =>
    intro s _ hd hu
    rw [List.cons_append, hasUnit, Bool.or_eq_false_iff] at hu
    cases d with
    | nil =>
      have := hu.1
      rw [hd c (by simp), Bool.true_and, Bool.or_eq_false_iff] at this
      exact this
    | cons c2 d => exact ih s (by simp) (fun c hc => hd c (by simp [hc])) hu.2

theorem take_prefix {u s r : Str} (hr : ∀ c, r.head? = some c → isWord c = false) (hu : ∀ c ∈ u, isWord c = true) (h : (s ++ r).take u.length = u) : u.isPrefixOf s = true := by
  induction u generalizing s with
  | nil => simp
  | cons x u ih =>
    cases s with
    | nil =>
      exfalso
      cases r with
      | nil => simp at h
      | cons c r =>
        simp only [List.nil_append, List.length_cons, List.take_succ_cons, List.cons.injEq] at h
        have h1 := hr c rfl
        rw [h.1, hu x (by simp)] at h1
        cases h1
    | cons y s =>
      simp only [List.cons_append, List.length_cons, List.take_succ_cons, List.cons.injEq] at h
      simp only [List.isPrefixOf, Bool.and_eq_true, beq_iff_eq]
      exact ⟨h.1.symm, ih (fun c hc => hu c (by simp [hc])) h.2⟩

theorem hasUnit_suffix (a b : Str) (h : hasUnit (a ++ b) = false) : hasUnit b = false := by
  induction a with
  | nil => exact h
  | cons c a ih =>
    rw [List.cons_append, hasUnit, Bool.or_eq_false_iff] at h
    exact ih h.2

theorem unit_word : (∀ c ∈ "mho".toList, isWord c = true) ∧ ∀ c ∈ "ohm".toList, isWord c = true := by decide

/-- A name is copied by the fifth rule. -/
theorem sub5_name (x r : Str) (hx : Name x) (hr : Follow r) : sub try5 0 (x ++ r) = x ++ sub try5 0 r := by
  apply sub_copy
  intro a c b hab
  by_cases hc : c.isDigit = true
  · have hb : b = b.takeWhile Char.isDigit ++ b.dropWhile Char.isDigit := (List.takeWhile_append_dropWhile).symm
    generalize hd : b.takeWhile Char.isDigit = d at hb
    generalize hs : b.dropWhile Char.isDigit = s at hb
    have hdd : ∀ y ∈ d, y.isDigit = true := by
      intro y hy
      rw [← hd] at hy
      exact (List.mem_takeWhile_imp hy)
    have hu : hasUnit (c :: d ++ s) = false := by
      apply hasUnit_suffix a
      rw [List.cons_append, ← hb, ← hab]
      exact hx.unit
    have hcd : ∀ y ∈ c :: d, y.isDigit = true := by
      intro y hy
      rcases List.mem_cons.mp hy with rfl | hy
      · exact hc
      · exact hdd y hy
    have h1 := hasUnit_run (c :: d) s (by simp) hcd hu
    have hfr := follow_not_word hr
    have h2 : (s ++ r).take 3 ≠ "mho".toList := by
      intro h
      have := take_prefix (u := "mho".toList) hfr unit_word.1 h
      rw [h1.1] at this; cases this
    have h3 : (s ++ r).take 3 ≠ "ohm".toList := by
      intro h
      have := take_prefix (u := "ohm".toList) hfr unit_word.2 h
      rw [h1.2] at this; cases this
    have h4 : c :: (b ++ r) = (c :: d) ++ (s ++ r) := by rw [hb]; simp
    rw [h4]
    apply try5_run _ _ hcd _ h2 h3
    intro y hy
    cases s with
    | nil =>
      have := hfr y (by simpa using hy)
      unfold isWord at this
      by_contra hyd
      have hyd : y.isDigit = true := by simpa using hyd
      simp [Char.isAlphanum, hyd] at this
    | cons z s =>
      simp at hy
      have := List.head?_dropWhile_not Char.isDigit b
      rw [hs] at this
      simp at this
      rw [← hy]; exact this
  · exact try5_nodigit (by simpa using hc)

theorem numchar_not {c : Char} (h : c.isDigit = true ∨ c = '.' ∨ c = 'e' ∨ c = 'E' ∨ c = '+' ∨ c = '-') (hd : c.isDigit = false) : c ≠ 'm' ∧ c ≠ 'o' := by
  rcases h with h | rfl | rfl | rfl | rfl | rfl
  · rw [hd] at h; cases h
  all_goals decide

theorem take3_head {s : Str} (h : ∀ c, s.head? = some c → c ≠ 'm' ∧ c ≠ 'o') : s.take 3 ≠ "mho".toList ∧ s.take 3 ≠ "ohm".toList := by
  cases s with
  | nil => simp
  | cons c s =>
    have := h c rfl
    constructor
    · intro hh
      simp only [List.take_succ_cons] at hh
      injection hh with h1 _
      exact this.1 h1
    · intro hh
      simp only [List.take_succ_cons] at hh
      injection hh with h1 _
      exact this.2 h1

/-- The beginning of a number is copied by the fifth rule. -/
theorem sub5_copy (p x : Str) (hp : NumText p)
    (hq : (∀ c, x.head? = some c → c.isDigit = false ∧ c ≠ 'm' ∧ c ≠ 'o') ∨ (∀ c, p.getLast? = some c → c.isDigit = false)) :
    sub try5 0 (p ++ x) = p ++ sub try5 0 x := by
  apply sub_copy
  intro a c b hab
  by_cases hc : c.isDigit = true
  · have hb : b = b.takeWhile Char.isDigit ++ b.dropWhile Char.isDigit := (List.takeWhile_append_dropWhile).symm
    generalize hd : b.takeWhile Char.isDigit = d at hb
    generalize hs : b.dropWhile Char.isDigit = s at hb
    have hcd : ∀ y ∈ c :: d, y.isDigit = true := by
      intro y hy
      rcases List.mem_cons.mp hy with rfl | hy
      · exact hc
      · rw [← hd] at hy; exact (List.mem_takeWhile_imp hy)
    have h4 : c :: (b ++ x) = (c :: d) ++ (s ++ x) := by rw [hb]; simp
    rw [h4]
    have key : ∀ y, (s ++ x).head? = some y → y.isDigit = false ∧ y ≠ 'm' ∧ y ≠ 'o' := by
      cases s with
      | nil =>
        rcases hq with hq | hq
        · exact hq
        · exfalso
          have hl : ∃ z, p.getLast? = some z ∧ z ∈ c :: d := by
            rw [hab, hb, List.append_nil, List.getLast?_append]
            cases hg : (c :: d).getLast? with
            | none => simp at hg
            | some z => exact ⟨z, rfl, List.mem_of_getLast? hg⟩
          obtain ⟨z, hz, hm⟩ := hl
          have := hq z hz
          rw [hcd z hm] at this; cases this
      | cons z s =>
        intro y hy
        simp at hy
        subst hy
        have hz : z.isDigit = false := by
          have := List.head?_dropWhile_not Char.isDigit b
          rw [hs] at this
          simpa using this
        exact ⟨hz, numchar_not (hp z (by rw [hab, hb]; simp)) hz⟩
    have h5 := take3_head (fun y hy => (key y hy).2)
    exact try5_run _ _ hcd (fun y hy => (key y hy).1) h5.1 h5.2
  · exact try5_nodigit (by simpa using hc)

theorem follow_head {r : Str} (h : Follow r) : ∀ c, r.head? = some c → c.isDigit = false ∧ c ≠ 'm' ∧ c ≠ 'o' := by
  intro c hc
  rcases h c hc with rfl | rfl | rfl | rfl <;> decide

/-- The last digits of a text. -/
theorem last_run (t : Str) : ∃ p d, t = p ++ d ∧ (∀ c ∈ d, c.isDigit = true) ∧ ∀ c, p.getLast? = some c → c.isDigit = false := by
  refine ⟨(t.reverse.dropWhile Char.isDigit).reverse, (t.reverse.takeWhile Char.isDigit).reverse, ?_, ?_, ?_⟩
  · have := congrArg List.reverse (List.takeWhile_append_dropWhile (p := Char.isDigit) (l := t.reverse))
    rw [List.reverse_append, List.reverse_reverse] at this
    exact this.symm
  · intro c hc
    rw [List.mem_reverse] at hc
    exact List.mem_takeWhile_imp hc
  · intro c hc
    rw [List.getLast?_reverse] at hc
    have := List.head?_dropWhile_not Char.isDigit t.reverse
    rw [hc] at this
    simpa using this

/-- A number loses its unit. -/
theorem sub5_num {t u : Str} {q : ℚ} (r : Str) (h : Numeral t q) (hr : Follow r)
    (hu : u = [] ∨ ((u = "mho".toList ∨ u = "ohm".toList) ∧ ∀ c, t.getLast? = some c → c.isDigit = true)) :
    sub try5 0 (t ++ u ++ r) = t ++ sub try5 0 r := by
  obtain ⟨hne, hc⟩ := numeral_chars h
  rcases hu with rfl | ⟨hu, hl⟩
  · rw [List.append_nil]
    exact sub5_copy t r hc (Or.inl (follow_head hr))
  · obtain ⟨p, d, hpd, hd, hp⟩ := last_run t
    have hdne : d ≠ [] := by
      rintro rfl
      rw [List.append_nil] at hpd
      subst hpd
      cases hg : t.getLast? with
      | none => rw [List.getLast?_eq_none_iff] at hg; exact hne hg
      | some c =>
        have h1 := hl c hg
        rw [hp c hg] at h1; cases h1
    have h3 : sub try5 0 ((d ++ u) ++ r) = d ++ sub try5 0 r := by
      apply sub_some (by simp [hdne]) (n := d.length + 3)
      · have hw : ∀ (d : Str), (∀ c ∈ d, c.isDigit = true) → (d ++ u ++ r).takeWhile Char.isDigit = d ∧ (d ++ u ++ r).dropWhile Char.isDigit = u ++ r := by
          intro d
          induction d with
          | nil => intro _; rcases hu with rfl | rfl <;> exact ⟨rfl, rfl⟩
          | cons c d ih =>
            intro hd
            obtain ⟨i1, i2⟩ := ih (fun c hc => hd c (by simp [hc]))
            simp only [List.cons_append, List.takeWhile_cons, List.dropWhile_cons, hd c (by simp), if_true, i1, i2]
            exact ⟨trivial, trivial⟩
        unfold try5
        rw [(hw d hd).1, (hw d hd).2]
        dsimp only
        rw [if_neg hdne, if_pos]
        rcases hu with rfl | rfl
        · left; rfl
        · right; rfl
      · rcases hu with rfl | rfl <;> simp
    rw [hpd, List.append_assoc, List.append_assoc, sub5_copy p _ (fun c h => hc c (by rw [hpd]; simp [h])) (Or.inr hp), ← List.append_assoc d, h3, List.append_assoc]

/-- Formulas without nets and elements. -/
inductive Bare (unit : Bool) : Expr → Prop
  | num {t u : Str} {q : ℚ} : Numeral t q → u = [] ∨ (unit = true ∧ (u = "mho".toList ∨ u = "ohm".toList) ∧ ∀ c, t.getLast? = some c → c.isDigit = true) → Bare unit (.num t u q)
  | name {x : Str} : Name x → (∀ c, x.head? = some c → c.isDigit = false) → x ∉ reserved → Bare unit (.name x)
  | bin {op : Op} {l r : Expr} : Bare unit l → Bare unit r → Bare unit (.bin op l r)
  | neg {e : Expr} : Bare unit e → Bare unit (.neg e)

theorem sub5_other {c : Char} (s : Str) (hc : c.isDigit = false) : sub try5 0 (c :: s) = c :: sub try5 0 s := sub_none (try5_nodigit hc)

theorem sub5_expr (e : Expr) (he : Bare true e) : ∀ r, Follow r → sub try5 0 (e.text ++ r) = (rule5 e).text ++ sub try5 0 r := by
  induction he with
  | num h1 h2 =>
    intro r hr
    simp only [rule5, Expr.text, List.append_nil]
    apply sub5_num r h1 hr
    rcases h2 with h2 | ⟨_, h2⟩
    · exact Or.inl h2
    · exact Or.inr h2
  | name h1 _ _ => intro r hr; exact sub5_name _ r h1 hr
  | @bin op l r' _ _ i1 i2 =>
    intro r hr
    simp only [rule5, Expr.text, List.cons_append, List.append_assoc, List.nil_append]
    rw [sub5_other _ (by decide), i1 _ (follow_op op _), sub5_other _ (by cases op <;> decide), i2 _ (follow_close r), sub5_other _ (by decide)]
  | @neg e _ i =>
    intro r hr
    simp only [rule5, Expr.text, List.cons_append, List.append_assoc, List.nil_append]
    rw [sub5_other _ (by decide), sub5_other _ (by decide), i _ (follow_close r), sub5_other _ (by decide)]

theorem prefix_tail : ∀ (u a : Str), '_' ∉ u → u.isPrefixOf (a ++ ['_', '_']) = true → u.isPrefixOf a = true := by
  intro u
  induction u with
  | nil => intro a _ _; simp
  | cons y u iu =>
    intro a hu hc
    cases a with
    | nil =>
      simp only [List.nil_append, List.isPrefixOf, Bool.and_eq_true, beq_iff_eq] at hc
      exact absurd (by rw [hc.1]; simp) hu
    | cons z a =>
      simp only [List.cons_append, List.isPrefixOf, Bool.and_eq_true, beq_iff_eq] at hc ⊢
      exact ⟨hc.1, iu a (fun h => hu (by simp [h])) hc.2⟩

/-- A quoted name has no unit. -/
theorem quoted_name (c : Char) (a : Str) (hc : c = 'V' ∨ c = 'I' ∨ c = 'P') (h : Name a) : Name (quoted c a) := by
  refine ⟨by simp [quoted], ?_, ?_⟩
  · intro x hx
    unfold quoted at hx
    simp only [List.mem_cons, List.mem_append, List.not_mem_nil, or_false] at hx
    rcases hx with rfl | rfl | rfl | hx | rfl | rfl
    · left; rcases hc with rfl | rfl | rfl <;> decide
    · exact Or.inr rfl
    · exact Or.inr rfl
    · exact h.chars x hx
    · exact Or.inr rfl
    · exact Or.inr rfl
  · have key : ∀ a : Str, hasUnit a = false → hasUnit (a ++ ['_', '_']) = false := by
      intro a
      induction a with
      | nil => intro _; decide
      | cons x a ih =>
        intro hu
        rw [hasUnit, Bool.or_eq_false_iff] at hu
        rw [List.cons_append, hasUnit, Bool.or_eq_false_iff]
        refine ⟨?_, ih hu.2⟩
        cases hx : x.isDigit with
        | false => rfl
        | true =>
          have h1 := hu.1
          rw [hx, Bool.true_and, Bool.or_eq_false_iff] at h1
          rw [Bool.true_and, Bool.or_eq_false_iff]
          have pre : ∀ u : Str, '_' ∉ u → u.isPrefixOf a = false → u.isPrefixOf (a ++ ['_', '_']) = false := by
            intro u hu hp
            cases hc : u.isPrefixOf (a ++ ['_', '_']) with
            | false => rfl
            | true => rw [prefix_tail u a hu hc] at hp; cases hp
          exact ⟨pre _ (by decide) h1.1, pre _ (by decide) h1.2⟩
    unfold quoted
    rw [hasUnit, hasUnit, hasUnit, key a h.unit]
    rcases hc with rfl | rfl | rfl <;> rfl

/-- The formula after the first four rules. -/
def plain (e : Expr) : Expr := rule3 (rule2 (rule1 e))

theorem quoted_free (c : Char) (a : Str) (hc : c = 'V' ∨ c = 'I' ∨ c = 'P') : quoted c a ∉ reserved := by
  intro h
  have : ∀ x ∈ reserved, x.take 2 ≠ [c, '_'] := by
    rcases hc with rfl | rfl | rfl <;> decide
  exact this _ h rfl

theorem bare_quoted {u : Bool} (c : Char) (a : Str) (hc : c = 'V' ∨ c = 'I' ∨ c = 'P') (h : Name a) : Bare u (.name (quoted c a)) := by
  refine .name (quoted_name c a hc h) ?_ (quoted_free c a hc)
  intro x hx
  simp [quoted] at hx
  subst hx
  rcases hc with rfl | rfl | rfl <;> decide

theorem bare4 {e : Expr} (h : Ok e) : Bare true (rule4 (plain e)) := by
  induction h with
  | num h1 h2 =>
    refine .num h1 ?_
    rcases h2 with h2 | ⟨h2, h3⟩
    · exact Or.inl h2
    · exact Or.inr ⟨rfl, h2, h3⟩
  | @volt a h1 _ => exact bare_quoted 'V' a (Or.inl rfl) h1
  | @diff a b h1 h2 _ =>
    unfold plain rule1
    split_ifs
    · exact bare_quoted 'V' a (Or.inl rfl) h1
    · unfold rule2
      split_ifs
      · exact .neg (bare_quoted 'V' b (Or.inl rfl) h2)
      · exact .bin (bare_quoted 'V' a (Or.inl rfl) h1) (bare_quoted 'V' b (Or.inl rfl) h2)
  | @cur c r h1 h2 => exact bare_quoted c r (Or.inr h1) h2
  | name h1 h2 _ _ _ h3 => exact .name h1 h2 h3
  | bin _ _ i1 i2 => exact .bin i1 i2
  | neg _ i => exact .neg i

theorem bare5 {e : Expr} (h : Bare true e) : Bare false (rule5 e) := by
  induction h with
  | num h1 _ => exact .num h1 (Or.inl rfl)
  | name h1 h2 h3 => exact .name h1 h2 h3
  | bin _ _ i1 i2 => exact .bin i1 i2
  | neg _ i => exact .neg i

theorem expand_text (e : Expr) (h : Ok e) : expand e.text = (plain e).text := by
  have hf := ok_fine h
  have h1 := sub1_expr e hf [] follow_nil
  have h2 := sub2_expr (rule1 e) (fine1 hf) [] follow_nil
  have h3 := sub3_expr (rule2 (rule1 e)) (fine2 (fine1 hf)) [] follow_nil
  simp only [List.append_nil, sub] at h1 h2 h3
  unfold expand plain
  rw [h1, h2, h3]

theorem toPython_text (e : Expr) (h : Ok e) : toPython (plain e).text = (rule5 (rule4 (plain e))).text := by
  have h4 := sub4_expr (plain e) (fine3 (fine2 (fine1 (ok_fine h)))) [] follow_nil
  have h5 := sub5_expr _ (bare4 h) [] follow_nil
  simp only [List.append_nil, sub] at h4 h5
  unfold toPython
  rw [h4, h5]

/-! ### eval -/

def toks : Expr → List Tok
  | .num _ _ q => [.num q]
  | .name x => [.name x]
  | .bin op l r => .op '(' :: (toks l ++ .op op.char :: (toks r ++ [.op ')']))
  | .neg e => .op '(' :: .op '-' :: (toks e ++ [.op ')'])
  | _ => []

theorem tok_skip : ∀ (p r : Str), tokenise p.length (p ++ r) = tokenise 0 r := by
  intro p
  induction p with
  | nil => intro r; rfl
  | cons c p ih => intro r; exact ih r

theorem tok_some {p r : Str} {t : Tok} (hp : p ≠ []) (h : lexOne (p ++ r) = some (t, p.length)) : tokenise 0 (p ++ r) = (tokenise 0 r).map (t :: ·) := by
  cases p with
  | nil => exact absurd rfl hp
  | cons c p =>
    rw [List.cons_append] at h ⊢
    rw [tokenise, h]
    dsimp only
    rw [List.length_cons, Nat.add_sub_cancel, tok_skip]

theorem tok_op (c : Char) (r : Str) (h : c ∈ "+-*()".toList) : tokenise 0 (c :: r) = (tokenise 0 r).map (Tok.op c :: ·) := by
  apply tok_some (p := [c]) (by simp)
  have : lexOne (c :: r) = some (Tok.op c, 1) := by
    unfold lexOne
    have h2 : (c.isDigit || c == '.') = false ∧ isWord c = false := by
      revert c; decide
    dsimp only
    rw [h2.1, h2.2]
    simp only [Bool.false_eq_true, if_false]
    rw [if_pos h]
  exact this

theorem tok_name (x r : Str) (hx : Name x) (hd : ∀ c, x.head? = some c → c.isDigit = false) (hk : x ∉ reserved) (hr : Follow r) :
    tokenise 0 (x ++ r) = (tokenise 0 r).map (Tok.name x :: ·) := by
  apply tok_some hx.ne
  have hw := word_app (name_word hx) (follow_not_word hr)
  unfold word at hw
  rw [Prod.mk.injEq] at hw
  cases x with
  | nil => exact absurd rfl hx.ne
  | cons c x =>
    have h1 : (c.isDigit || c == '.') = false := by
      rw [hd c rfl]
      have := name_word hx c (by simp)
      cases hc : c == '.' with
      | false => rfl
      | true =>
        rw [beq_iff_eq] at hc
        rw [hc] at this
        exact absurd this (by decide)
    unfold lexOne
    dsimp only [List.cons_append]
    rw [h1, name_word hx c (by simp)]
    simp only [Bool.false_eq_true, if_false, if_true]
    have hw1 : List.takeWhile isWord (c :: (x ++ r)) = c :: x := hw.1
    simp only [hw1]
    rw [if_neg]
    exact hk

/-! Numbers. -/

theorem takeWhile_stop {p : Char → Bool} {a b : Str} (ha : ∀ c ∈ a, p c = true) (hb : ∀ c, b.head? = some c → p c = false) :
    (a ++ b).takeWhile p = a ∧ (a ++ b).dropWhile p = b := by
  induction a with
  | nil =>
    cases b with
    | nil => exact ⟨rfl, rfl⟩
    | cons c b => simp [hb c rfl]
  | cons c a ih =>
    have := ih (fun c hc => ha c (by simp [hc]))
    simp [ha c (by simp), this.1, this.2]

theorem digit_not {c : Char} (h : c.isDigit = true) : c ≠ 'e' ∧ c ≠ 'E' ∧ c ≠ '+' ∧ c ≠ '-' ∧ c ≠ '.' := by
  refine ⟨?_, ?_, ?_, ?_, ?_⟩ <;> (rintro rfl; exact absurd h (by decide))

theorem numberText_plain {t r : Str} {q : ℚ} (h : Spec.EngNumber.Unsigned t q) (hr : Follow r) : numberText (t ++ r) = t := by
  have h1 : ∀ c ∈ t, (fun c : Char => c.isDigit || c == '.') c = true := by
    intro c hc
    rcases (unsigned_chars h).2 c hc with h | h
    · simp [h]
    · simp [h]
  have h2 : ∀ c, r.head? = some c → (fun c : Char => c.isDigit || c == '.') c = false := by
    intro c hc
    rcases hr c hc with rfl | rfl | rfl | rfl <;> decide
  obtain ⟨e1, e2⟩ := takeWhile_stop h1 h2
  unfold numberText
  rw [e1, e2]
  cases r with
  | nil => rfl
  | cons c r =>
    dsimp only
    rw [if_neg]
    rcases hr c rfl with rfl | rfl | rfl | rfl <;> decide

theorem numberText_exp {t s d r : Str} {q : ℚ} {c : Char} (h : Spec.EngNumber.Unsigned t q) (hc : c = 'e' ∨ c = 'E') (hs : s = [] ∨ s = ['+'] ∨ s = ['-'])
    (hd : Spec.EngNumber.Digits d) (hdn : d ≠ []) (hr : Follow r) : numberText (t ++ c :: (s ++ d) ++ r) = t ++ c :: (s ++ d) := by
  have h1 : ∀ c ∈ t, (fun c : Char => c.isDigit || c == '.') c = true := by
    intro c hc
    rcases (unsigned_chars h).2 c hc with h | h
    · simp [h]
    · simp [h]
  have h2 : ∀ x, (c :: (s ++ d ++ r)).head? = some x → (fun c : Char => c.isDigit || c == '.') x = false := by
    intro x hx
    simp at hx
    subst hx
    rcases hc with rfl | rfl <;> decide
  have h3 : ∀ x, r.head? = some x → x.isDigit = false := fun x hx => (follow_head hr x hx).1
  have h4 := takeWhile_stop (p := Char.isDigit) hd h3
  obtain ⟨e1, e2⟩ := takeWhile_stop h1 h2
  unfold numberText
  rw [show t ++ c :: (s ++ d) ++ r = t ++ c :: (s ++ d ++ r) by simp, e1, e2]
  dsimp only
  rw [if_pos hc]
  rcases hs with rfl | rfl | rfl
  · cases d with
    | nil => exact absurd rfl hdn
    | cons g d =>
      have hg := digit_not (hd g (by simp))
      simp only [List.nil_append, List.cons_append]
      rw [if_neg (by tauto), ← List.cons_append, h4.1, if_neg (by simp)]
  · simp only [List.cons_append, List.nil_append]
    rw [if_pos (by simp), h4.1, if_neg hdn]
  · simp only [List.cons_append, List.nil_append]
    rw [if_pos (by simp), h4.1, if_neg hdn]

theorem signed_append {t x : Str} {q : ℚ} (h : Spec.EngNumber.Unsigned t q) : Model.FloatUnit.signed (t ++ x) = (1, t ++ x) := by
  obtain ⟨hne, hc⟩ := unsigned_chars h
  cases t with
  | nil => exact absurd rfl hne
  | cons c t =>
    have h1 : c ≠ '-' ∧ c ≠ '+' := by
      rcases hc c (by simp) with h | h
      · have := digit_not h; tauto
      · rw [h]; decide
    rw [List.cons_append]
    unfold Model.FloatUnit.signed
    split
    · rename_i hh; injection hh with hh _; exact absurd hh h1.1
    · rename_i hh; injection hh with hh _; exact absurd hh h1.2
    · rfl

theorem exponent_text {s d : Str} {g : ℤ} (hs : (s = [] ∧ g = 1) ∨ (s = ['+'] ∧ g = 1) ∨ (s = ['-'] ∧ g = -1)) (hd : Spec.EngNumber.Digits d) (hdn : d ≠ []) :
    Model.FloatUnit.exponent (s ++ d) = some (g * (Nat.ofDigitChars 10 d 0 : ℤ)) := by
  have hall : d.all Char.isDigit = true := by rw [List.all_eq_true]; exact hd
  rcases hs with ⟨rfl, rfl⟩ | ⟨rfl, rfl⟩ | ⟨rfl, rfl⟩
  · cases d with
    | nil => exact absurd rfl hdn
    | cons c d =>
      have h1 := digit_not (hd c (by simp))
      have h2 : Model.FloatUnit.signed (c :: d) = (1, c :: d) := by
        unfold Model.FloatUnit.signed
        split
        · rename_i hh; injection hh with hh _; exact absurd hh h1.2.2.2.1
        · rename_i hh; injection hh with hh _; exact absurd hh h1.2.2.1
        · rfl
      unfold Model.FloatUnit.exponent
      rw [List.nil_append, h2]
      dsimp only
      rw [if_pos ⟨hdn, hall⟩]
  · unfold Model.FloatUnit.exponent
    show (if d ≠ [] ∧ d.all Char.isDigit = true then _ else _) = _
    rw [if_pos ⟨hdn, hall⟩]; rfl
  · unfold Model.FloatUnit.exponent
    show (if d ≠ [] ∧ d.all Char.isDigit = true then _ else _) = _
    rw [if_pos ⟨hdn, hall⟩]; rfl

theorem tok_num (t r : Str) (q : ℚ) (h : Numeral t q) (hr : Follow r) : tokenise 0 (t ++ r) = (tokenise 0 r).map (Tok.num q :: ·) := by
  obtain ⟨hne, hch⟩ := numeral_chars h
  apply tok_some hne
  have hnt : numberText (t ++ r) = t := by
    cases h with
    | plain h _ => exact numberText_plain h hr
    | exp h hc hs hd hdn => exact numberText_exp h hc (by tauto) hd hdn hr
  have hfl : Model.FloatUnit.pyFloat t = some q := by
    cases h with
    | plain h _ => rw [Lemmas.FloatUnit.pyFloat_of_signed (Lemmas.FloatUnit.unsigned_head h) h]; simp
    | exp h hc hs hd hdn =>
      rw [Lemmas.FloatUnit.pyFloat_exp (by rcases hc with rfl | rfl <;> decide) (signed_append h) h (exponent_text hs hd hdn)]
      simp
  have hzero : (t.all Char.isDigit && t.head? == some '0' && !(t.all (· == '0'))) = false := by
    cases h with
    | plain h hz =>
      by_cases h0 : t.head? = some '0'
      · rcases hz h0 with h1 | h1
        · have : t.all Char.isDigit = false := by
            rw [List.all_eq_false]; exact ⟨'.', h1, by decide⟩
          rw [this]; rfl
        · have : t.all (· == '0') = true := by
            rw [List.all_eq_true]; intro c hc; simp [h1 c hc]
          rw [this]; simp
      · have : (t.head? == some '0') = false := by simpa using h0
        rw [this]; simp
    | @exp t s d q g c h hc hs hd hdn =>
      have : (t ++ c :: (s ++ d)).all Char.isDigit = false := by
        rw [List.all_eq_false]
        refine ⟨c, by simp, ?_⟩
        rcases hc with rfl | rfl <;> decide
      rw [this]; rfl
  have hfirst : ∃ c t', t = c :: t' ∧ (c.isDigit || c == '.') = true := by
    have key : ∀ {t : Str} {q : ℚ}, Spec.EngNumber.Unsigned t q → ∀ x, ∃ c t', t ++ x = c :: t' ∧ (c.isDigit || c == '.') = true := by
      intro t q h x
      obtain ⟨hne, hc⟩ := unsigned_chars h
      cases t with
      | nil => exact absurd rfl hne
      | cons c t =>
        refine ⟨c, t ++ x, rfl, ?_⟩
        rcases hc c (by simp) with h | h <;> simp [h]
    cases h with
    | plain h _ => have := key h []; rwa [List.append_nil] at this
    | exp h _ _ _ _ => exact key h _
  obtain ⟨c, t', rfl, hc⟩ := hfirst
  unfold lexOne
  dsimp only [List.cons_append]
  rw [hc]
  simp only [if_true]
  have hnt' : numberText (c :: (t' ++ r)) = c :: t' := hnt
  have hdr : (c :: (t' ++ r)).drop (c :: t').length = r := by simp
  simp only [hnt', hdr]
  have hw : ((r.head?.map isWord).getD false) = false := by
    cases hh : r.head? with
    | none => rfl
    | some x => exact follow_not_word hr x hh
  rw [hw]
  simp only [Bool.false_eq_true, if_false]
  have hz2 : ((c :: t').all Char.isDigit && c == '0' && !((c :: t').all (· == '0'))) = false := by
    simpa using hzero
  rw [hz2]
  simp only [Bool.false_eq_true, if_false]
  rw [hfl]
  rfl

theorem tok_expr (e : Expr) (h : Bare false e) : ∀ r, Follow r → tokenise 0 (e.text ++ r) = (tokenise 0 r).map (toks e ++ ·) := by
  induction h with
  | @num t u q h1 h2 =>
    intro r hr
    rcases h2 with rfl | ⟨h2, _⟩
    · simp only [Expr.text, List.append_nil, toks]
      rw [tok_num t r q h1 hr]
      rfl
    · cases h2
  | name h1 h2 h3 => intro r hr; exact tok_name _ r h1 h2 h3 hr
  | @bin op l r' _ _ i1 i2 =>
    intro r hr
    simp only [Expr.text, List.cons_append, List.append_assoc, List.nil_append, toks]
    rw [tok_op '(' _ (by decide), i1 _ (follow_op op _), tok_op op.char _ (by cases op <;> decide), i2 _ (follow_close r), tok_op ')' _ (by decide)]
    cases tokenise 0 r <;> simp
  | @neg e _ i =>
    intro r hr
    simp only [Expr.text, List.cons_append, List.append_assoc, List.nil_append, toks]
    rw [tok_op '(' _ (by decide), tok_op '-' _ (by decide), i _ (follow_close r), tok_op ')' _ (by decide)]
    cases tokenise 0 r <;> simp

/-! The parser. -/

/-- What eval gives for a formula without nets and elements. -/
def ev (env : Str → Option Val) : Expr → Option Val
  | .num _ _ q => some (.num q)
  | .name x => env x
  | .bin op l r => (ev env l).bind (fun v => (ev env r).bind (fun w => arith op.fn v w))
  | .neg e => (ev env e).map negate
  | _ => none

def depth : Expr → Nat
  | .bin _ l r => max (depth l) (depth r) + 1
  | .neg e => depth e + 1
  | _ => 1

/-- What follows a part of a formula inside parentheses. -/
def stopTok (ts : List Tok) : Prop := ts = [] ∨ ∃ r, ts = .op ')' :: r

theorem toks_head {env : Str → Option Val} {e : Expr} {v : Val} (h : ev env e = some v) (rest : List Tok) : ∃ t ts, toks e ++ rest = t :: ts ∧ t ≠ .op '-' := by
  cases e with
  | num t u q => exact ⟨_, _, rfl, by simp⟩
  | name x => exact ⟨_, _, rfl, by simp⟩
  | bin op l r => exact ⟨.op '(', _, rfl, by simp⟩
  | neg e => exact ⟨.op '(', _, rfl, by simp⟩
  | volt a => cases h
  | diff a b => cases h
  | cur c r => cases h

theorem unary_plain (atom : List Tok → Option (Val × List Tok)) (n : Nat) {t : Tok} {ts : List Tok} (h : t ≠ .op '-') : unary atom (n + 1) (t :: ts) = atom (t :: ts) := by
  unfold unary
  split
  · rename_i hh; cases hh
  · rename_i hh hk; injection hk with hk _; exact absurd hk h
  · rfl

section
variable {env : Str → Option Val} {atom : List Tok → Option (Val × List Tok)}

theorem unary_expr {e : Expr} {v : Val} {rest : List Tok} (h : ev env e = some v) (ha : atom (toks e ++ rest) = some (v, rest)) (n : Nat) :
    unary atom (n + 1) (toks e ++ rest) = some (v, rest) := by
  obtain ⟨t, ts, h1, h2⟩ := toks_head h rest
  rw [h1] at ha ⊢
  rw [unary_plain atom n h2, ha]

theorem prodLoop_stop (n : Nat) (v : Val) {ts : List Tok} (h : ∀ r, ts ≠ .op '*' :: r) : prodLoop atom n v ts = some (v, ts) := by
  unfold prodLoop
  split
  · exact absurd rfl (h _)
  · rfl

theorem sumLoop_stop (n : Nat) (v : Val) {ts : List Tok} (h : stopTok ts) : sumLoop atom n v ts = some (v, ts) := by
  rcases h with rfl | ⟨r, rfl⟩ <;> (cases n <;> (unfold sumLoop; rfl))

theorem stop_star {ts : List Tok} (h : stopTok ts) : ∀ r, ts ≠ .op '*' :: r := by
  intro r e
  rcases h with rfl | ⟨r', rfl⟩
  · cases e
  · injection e with e _; injection e with e; exact absurd e (by decide)

theorem product_one {e : Expr} {v : Val} {rest : List Tok} (h : ev env e = some v) (ha : atom (toks e ++ rest) = some (v, rest)) (hr : ∀ r, rest ≠ .op '*' :: r) :
    product atom (toks e ++ rest) = some (v, rest) := by
  unfold product
  rw [unary_expr h ha]
  exact prodLoop_stop _ _ hr

theorem expression_one {e : Expr} {v : Val} {rest : List Tok} (h : ev env e = some v) (ha : atom (toks e ++ rest) = some (v, rest)) (hr : stopTok rest) :
    expression atom (toks e ++ rest) = some (v, rest) := by
  unfold expression
  rw [product_one h ha (stop_star hr)]
  exact sumLoop_stop _ _ hr

theorem expression_two {op : Op} {l r : Expr} {v w x : Val} {rest : List Tok} (hl : ev env l = some v) (hr : ev env r = some w) (hx : arith op.fn v w = some x)
    (al : atom (toks l ++ .op op.char :: (toks r ++ rest)) = some (v, .op op.char :: (toks r ++ rest))) (ar : atom (toks r ++ rest) = some (w, rest)) (hs : stopTok rest) :
    expression atom (toks l ++ .op op.char :: (toks r ++ rest)) = some (x, rest) := by
  unfold expression
  cases op with
  | mul =>
    unfold product
    rw [unary_expr hl al]
    show (prodLoop atom (_ + 1) v (.op '*' :: (toks r ++ rest))).bind _ = _
    rw [prodLoop, unary_expr hr ar]
    show (((arith (· * ·) v w).bind _).bind _) = _
    rw [show arith (fun a b : ℚ => a * b) v w = some x from hx]
    show (prodLoop atom _ x rest).bind _ = _
    rw [prodLoop_stop _ _ (stop_star hs)]
    exact sumLoop_stop _ _ hs
  | add =>
    rw [product_one hl al (by intro r e; injection e with e _; injection e with e; exact absurd e (by decide))]
    show sumLoop atom (_ + 1) v (.op '+' :: (toks r ++ rest)) = _
    rw [sumLoop, product_one hr ar (stop_star hs)]
    show (arith (· + ·) v w).bind _ = _
    rw [show arith (fun a b : ℚ => a + b) v w = some x from hx]
    exact sumLoop_stop _ _ hs
  | sub =>
    rw [product_one hl al (by intro r e; injection e with e _; injection e with e; exact absurd e (by decide))]
    show sumLoop atom (_ + 1) v (.op '-' :: (toks r ++ rest)) = _
    rw [sumLoop, product_one hr ar (stop_star hs)]
    show (arith (· - ·) v w).bind _ = _
    rw [show arith (fun a b : ℚ => a - b) v w = some x from hx]
    exact sumLoop_stop _ _ hs

theorem expression_neg {e : Expr} {v : Val} {rest : List Tok} (h : ev env e = some v) (ha : atom (toks e ++ rest) = some (v, rest)) (hs : stopTok rest) :
    expression atom (.op '-' :: (toks e ++ rest)) = some (negate v, rest) := by
  obtain ⟨t, ts, h1, h2⟩ := toks_head h rest
  have hlen : (toks e ++ rest).length = ts.length + 1 := by rw [h1]; rfl
  unfold expression product
  rw [show (Tok.op '-' :: (toks e ++ rest)).length = (toks e ++ rest).length + 1 from rfl]
  rw [unary, hlen, unary_expr h ha]
  show (prodLoop atom _ (negate v) rest).bind _ = _
  rw [prodLoop_stop _ _ (stop_star hs)]
  exact sumLoop_stop _ _ hs
end

theorem atom_expr (env : Str → Option Val) (e : Expr) : ∀ (n : Nat) (v : Val) (rest : List Tok), ev env e = some v → depth e ≤ n → atomAt env n (toks e ++ rest) = some (v, rest) := by
  induction e with
  | num t u q =>
    intro n v rest h hn
    obtain ⟨n, rfl⟩ : ∃ m, n = m + 1 := ⟨n - 1, by unfold depth at hn; omega⟩
    injection h with h; subst h; rfl
  | name x =>
    intro n v rest h hn
    obtain ⟨n, rfl⟩ : ∃ m, n = m + 1 := ⟨n - 1, by unfold depth at hn; omega⟩
    show (env x).map (fun v => (v, rest)) = _
    rw [show env x = some v from h]; rfl
  | volt a => intro n v rest h; cases h
  | diff a b => intro n v rest h; cases h
  | cur c r => intro n v rest h; cases h
  | bin op l r il ir =>
    intro n x rest h hn
    obtain ⟨n, rfl⟩ : ∃ m, n = m + 1 := ⟨n - 1, by unfold depth at hn; omega⟩
    have hn' : depth l ≤ n ∧ depth r ≤ n := by unfold depth at hn; omega
    unfold ev at h
    cases hl : ev env l with
    | none => rw [hl] at h; cases h
    | some v =>
      cases hr : ev env r with
      | none => rw [hl, hr] at h; cases h
      | some w =>
        rw [hl, hr] at h
        have hx : arith op.fn v w = some x := h
        have key := expression_two (rest := .op ')' :: rest) hl hr hx (il n v _ hl hn'.1) (ir n w _ hr hn'.2) (Or.inr ⟨rest, rfl⟩)
        simp only [toks, List.cons_append, List.append_assoc, List.nil_append]
        rw [atomAt, key]
        rfl
  | neg e ie =>
    intro n x rest h hn
    obtain ⟨n, rfl⟩ : ∃ m, n = m + 1 := ⟨n - 1, by unfold depth at hn; omega⟩
    have hn' : depth e ≤ n := by unfold depth at hn; omega
    unfold ev at h
    cases he : ev env e with
    | none => rw [he] at h; cases h
    | some v =>
      rw [he] at h
      injection h with h
      subst h
      have key := expression_neg (rest := .op ')' :: rest) he (ie n v _ he hn') (Or.inr ⟨rest, rfl⟩)
      simp only [toks, List.cons_append, List.append_assoc, List.nil_append]
      rw [atomAt, key]
      rfl

theorem depth_toks {e : Expr} (h : Bare false e) : depth e ≤ (toks e).length := by
  induction h with
  | num _ _ => exact Nat.le_refl 1
  | name _ _ _ => exact Nat.le_refl 1
  | bin _ _ i1 i2 => simp only [depth, toks, List.length_cons, List.length_append, List.length_nil]; omega
  | neg _ i => simp only [depth, toks, List.length_cons, List.length_append, List.length_nil]; omega

theorem eval_expr (env : Str → Option Val) {e : Expr} {v : Val} (hb : Bare false e) (h : ev env e = some v) : eval env e.text = some v := by
  have h1 := tok_expr e hb [] follow_nil
  rw [List.append_nil] at h1
  have h2 : tokenise 0 e.text = some (toks e) := by rw [h1]; simp [tokenise]
  have h3 : expression (atomAt env ((toks e).length + 1)) (toks e) = some (v, []) := by
    have := expression_one (atom := atomAt env ((toks e).length + 1)) (rest := []) h (atom_expr env e _ v [] h (Nat.le_succ_of_le (depth_toks hb))) (Or.inl rfl)
    rwa [List.append_nil] at this
  unfold eval
  rw [h2]
  dsimp only
  rw [h3]

/-! ### Values -/

/-- A number or an array stands for a waveform of n points. -/
def Rep (n : Nat) (varies : Bool) (v : Val) (f : Nat → ℚ) : Prop :=
  (varies = false ∧ ∃ q, v = .num q ∧ ∀ i, i < n → f i = q) ∨ (varies = true ∧ ∃ l, v = .vec l ∧ l.length = n ∧ ∀ i, i < n → l[i]? = some (f i))

theorem rep_negate {n : Nat} {b : Bool} {v : Val} {f : Nat → ℚ} (h : Rep n b v f) : Rep n b (negate v) (fun i => - f i) := by
  rcases h with ⟨hb, q, rfl, h⟩ | ⟨hb, l, rfl, hl, h⟩
  · exact Or.inl ⟨hb, -q, rfl, fun i hi => by show - f i = -q; rw [h i hi]⟩
  · refine Or.inr ⟨hb, l.map (fun x => -x), rfl, by simpa using hl, fun i hi => ?_⟩
    rw [List.getElem?_map, h i hi]; rfl

theorem rep_arith {n : Nat} {b b' : Bool} {v w : Val} {f g : Nat → ℚ} (o : ℚ → ℚ → ℚ) (hv : Rep n b v f) (hw : Rep n b' w g) :
    ∃ x, arith o v w = some x ∧ Rep n (b || b') x (fun i => o (f i) (g i)) := by
  rcases hv with ⟨rfl, q, rfl, h⟩ | ⟨rfl, l, rfl, hl, h⟩ <;> rcases hw with ⟨rfl, q', rfl, h'⟩ | ⟨rfl, l', rfl, hl', h'⟩
  · exact ⟨_, rfl, Or.inl ⟨rfl, o q q', rfl, fun i hi => by show o (f i) (g i) = _; rw [h i hi, h' i hi]⟩⟩
  · refine ⟨_, rfl, Or.inr ⟨rfl, l'.map (fun y => o q y), rfl, by simpa using hl', fun i hi => ?_⟩⟩
    rw [List.getElem?_map, h' i hi]; show _ = some (o (f i) (g i)); rw [h i hi]; rfl
  · refine ⟨_, rfl, Or.inr ⟨rfl, l.map (fun y => o y q'), rfl, by simpa using hl, fun i hi => ?_⟩⟩
    rw [List.getElem?_map, h i hi]; show _ = some (o (f i) (g i)); rw [h' i hi]; rfl
  · refine ⟨.vec (List.zipWith o l l'), by simp [arith, hl, hl'], Or.inr ⟨rfl, _, rfl, by simp [hl, hl'], fun i hi => ?_⟩⟩
    rw [List.getElem?_zipWith, h i hi, h' i hi]

/-- The formula contains this part. -/
inductive Refers (x : Expr) : Expr → Prop
  | here : Refers x x
  | left {op : Op} {l r : Expr} : Refers x l → Refers x (.bin op l r)
  | right {op : Op} {l r : Expr} : Refers x r → Refers x (.bin op l r)
  | neg {e : Expr} : Refers x e → Refers x (.neg e)

/-- The names Python sees stand for what the formula refers to. -/
structure Env (n : Nat) (w : World) (env : Str → Option Val) (e : Expr) : Prop where
  volt : ∀ a f, Refers (.volt a) e → w.voltage a = some f → ∃ v, env (quoted 'V' a) = some v ∧ Rep n true v f
  cur : ∀ c a f, Refers (.cur c a) e → w.element c a = some f → ∃ v, env (quoted c a) = some v ∧ Rep n true v f
  name : ∀ x q, Refers (.name x) e → w.param x = some q → ∃ v, env x = some v ∧ Rep n false v (fun _ => q)

theorem bind2 {α : Type} {x y : Option α} {β : Type} {k : α → α → β} {f : β} (h : x.bind (fun a => y.map (fun b => k a b)) = some f) : ∃ a b, x = some a ∧ y = some b ∧ f = k a b := by
  cases x with
  | none => cases h
  | some a =>
    cases y with
    | none => cases h
    | some b => injection h with h; exact ⟨a, b, rfl, rfl, h.symm⟩

theorem value_bin {w : World} {op : Op} {l r : Expr} {f : Nat → ℚ} (h : (Expr.bin op l r).value w = some f) :
    ∃ a b, l.value w = some a ∧ r.value w = some b ∧ f = fun i => op.fn (a i) (b i) := bind2 h

theorem value_neg {w : World} {e : Expr} {f : Nat → ℚ} (h : (Expr.neg e).value w = some f) : ∃ a, e.value w = some a ∧ f = fun i => - a i := by
  unfold Expr.value at h
  cases ha : e.value w with
  | none => rw [ha] at h; cases h
  | some a => rw [ha] at h; injection h with h; exact ⟨a, rfl, h.symm⟩

theorem value_plain {w : World} {e : Expr} (h : Ok e) : ∀ f, e.value w = some f → (plain e).value w = some f := by
  induction h with
  | num h1 h2 => intro f hf; exact hf
  | volt h1 _ => intro f hf; exact hf
  | cur h1 h2 => intro f hf; exact hf
  | name h1 => intro f hf; exact hf
  | bin _ _ i1 i2 =>
    intro f hf
    obtain ⟨a, b, ha, hb, rfl⟩ := value_bin hf
    simp only [plain, rule1, rule2, rule3, Expr.value] at i1 i2 ⊢
    rw [i1 a ha, i2 b hb]; rfl
  | neg _ i =>
    intro f hf
    obtain ⟨a, ha, rfl⟩ := value_neg hf
    simp only [plain, rule1, rule2, rule3, Expr.value] at i ⊢
    rw [i a ha]; rfl
  | @diff a b h1 h2 h3 =>
    intro f hf
    obtain ⟨x, y, hx, hy, rfl⟩ := bind2 (hf : ((w.net a).bind fun f => (w.net b).map fun g i => f i - g i) = some f)
    by_cases hb : b = ['0']
    · have ha : a ≠ ['0'] := fun ha => h3 ⟨ha, hb⟩
      unfold World.net at hx hy
      rw [if_neg ha] at hx
      rw [if_pos hb] at hy
      injection hy with hy
      subst hy
      simp only [plain, rule1, if_pos hb, rule2, rule3, Expr.value, hx, sub_zero]
    · by_cases ha : a = ['0']
      · unfold World.net at hx hy
        rw [if_pos ha] at hx
        rw [if_neg hb] at hy
        injection hx with hx
        subst hx
        simp only [plain, rule1, if_neg hb, rule2, if_pos ha, rule3, Expr.value, hy, zero_sub, Option.map_some]
      · unfold World.net at hx hy
        rw [if_neg ha] at hx
        rw [if_neg hb] at hy
        simp only [plain, rule1, if_neg hb, rule2, if_neg ha, rule3, Expr.value, hx, hy, Option.map_some, Option.bind_some, Op.fn]

theorem plain_varies {e : Expr} (h : Ok e) : (plain e).varies = e.varies := by
  induction h with
  | bin _ _ i1 i2 =>
    simp only [plain, rule1, rule2, rule3, Expr.varies] at i1 i2 ⊢
    rw [i1, i2]
  | neg _ i =>
    simp only [plain, rule1, rule2, rule3, Expr.varies] at i ⊢
    exact i
  | @diff a b h1 h2 h3 =>
    by_cases hb : b = ['0']
    · simp only [plain, rule1, if_pos hb, rule2, rule3, Expr.varies]
    · by_cases ha : a = ['0']
      · simp only [plain, rule1, if_neg hb, rule2, if_pos ha, rule3, Expr.varies]
      · simp only [plain, rule1, if_neg hb, rule2, if_neg ha, rule3, Expr.varies, Bool.or_true]
  | _ => rfl

theorem Env.sub {n : Nat} {w : World} {env : Str → Option Val} {e e' : Expr} (h : Env n w env e) (hs : ∀ x, Refers x e' → Refers x e) : Env n w env e' :=
  ⟨fun a f hr => h.volt a f (hs _ hr), fun c a f hr => h.cur c a f (hs _ hr), fun x q hr => h.name x q (hs _ hr)⟩

/-- The formula Python evaluates has the value of the formula. -/
theorem ev_value {n : Nat} {w : World} {env : Str → Option Val} {e : Expr} (h : Fine true e) : ∀ f, Env n w env e → e.value w = some f →
    ∃ v, ev env (rule5 (rule4 e)) = some v ∧ Rep n e.varies v f := by
  induction h with
  | @num t u q h1 h2 =>
    intro f _ hf
    injection hf with hf
    subst hf
    exact ⟨.num q, rfl, Or.inl ⟨rfl, q, rfl, fun _ _ => rfl⟩⟩
  | @volt a h1 => intro f he hf; exact he.volt a f .here hf
  | diff h1 _ _ => cases h1
  | @cur c r h1 h2 => intro f he hf; exact he.cur c r f .here hf
  | @name x h1 =>
    intro f he hf
    unfold Expr.value at hf
    cases hp : w.param x with
    | none => rw [hp] at hf; cases hf
    | some q => rw [hp] at hf; injection hf with hf; subst hf; exact he.name x q .here hp
  | @bin op l r _ _ i1 i2 =>
    intro f he hf
    obtain ⟨a, b, ha, hb, rfl⟩ := value_bin hf
    obtain ⟨v, hv, rv⟩ := i1 a (he.sub (fun _ h => .left h)) ha
    obtain ⟨u, hu, ru⟩ := i2 b (he.sub (fun _ h => .right h)) hb
    obtain ⟨x, hx, rx⟩ := rep_arith op.fn rv ru
    refine ⟨x, ?_, rx⟩
    show (ev env (rule5 (rule4 l))).bind _ = _
    rw [hv]
    show (ev env (rule5 (rule4 r))).bind _ = _
    rw [hu]
    exact hx
  | @neg e _ i =>
    intro f he hf
    obtain ⟨a, ha, rfl⟩ := value_neg hf
    obtain ⟨v, hv, rv⟩ := i a (he.sub (fun _ h => .neg h)) ha
    refine ⟨negate v, ?_, rep_negate rv⟩
    show (ev env (rule5 (rule4 e))).map _ = _
    rw [hv]; rfl

/-! ### The traces used -/

theorem refers_infix {x e : Expr} (h : Refers x e) : x.text <:+: e.text := by
  induction h with
  | here => exact ⟨[], [], by simp⟩
  | @left op l r _ ih =>
    obtain ⟨p, s, h⟩ := ih
    exact ⟨'(' :: p, s ++ op.char :: (r.text ++ [')']), by simp only [Expr.text]; rw [← h]; simp⟩
  | @right op l r _ ih =>
    obtain ⟨p, s, h⟩ := ih
    exact ⟨'(' :: (l.text ++ op.char :: p), s ++ [')'], by simp only [Expr.text]; rw [← h]; simp⟩
  | @neg e _ ih =>
    obtain ⟨p, s, h⟩ := ih
    exact ⟨'(' :: '-' :: p, s ++ [')'], by simp only [Expr.text]; rw [← h]; simp⟩

theorem contains_infix : ∀ (p s : Str), p <:+: s → contains p s = true := by
  intro p s
  induction s with
  | nil => intro h; rw [List.infix_nil] at h; subst h; rfl
  | cons c s ih =>
    intro h
    rw [List.infix_cons_iff] at h
    unfold contains
    rcases h with h | h
    · rw [List.isPrefixOf_iff_prefix.mpr h]; rfl
    · rw [ih h]; simp

/-- A name that may stand in a formula keeps the conditions of `Ok`. -/
theorem refers_name {e : Expr} {x : Str} (h : Ok e) : Refers (.name x) (plain e) → (∀ y, x ≠ y ++ ['_', '_']) ∧ x.map Char.toLower ≠ "time".toList ∧
    x.map Char.toLower ≠ "frequency".toList := by
  induction h with
  | num h1 h2 => intro h; cases h
  | volt h1 _ => intro h; cases h
  | cur h1 h2 => intro h; cases h
  | name h1 h2 h3 h4 h5 => intro h; cases h; exact ⟨h3, h4, h5⟩
  | bin _ _ i1 i2 => intro h; cases h with
    | left h => exact i1 h
    | right h => exact i2 h
  | neg _ i => intro h; cases h with
    | neg h => exact i h
  | @diff a b h1 h2 h3 =>
    intro h
    unfold plain rule1 at h
    split_ifs at h with hb
    · cases h
    · unfold rule2 at h
      split_ifs at h with ha
      · cases h with
        | neg h => cases h
      · cases h with
        | left h => cases h
        | right h => cases h

theorem refers_ref {e : Expr} (h : Fine true e) : (∀ a, Refers (.volt a) e → Name a) ∧ ∀ c a, Refers (.cur c a) e → (c = 'I' ∨ c = 'P') ∧ Name a := by
  induction h with
  | num h1 h2 => exact ⟨fun a h => (by cases h), fun c a h => (by cases h)⟩
  | volt h1 => exact ⟨fun a h => (by cases h; exact h1), fun c a h => (by cases h)⟩
  | diff h1 _ _ => cases h1
  | cur h1 h2 => exact ⟨fun a h => (by cases h), fun c a h => (by cases h; exact ⟨h1, h2⟩)⟩
  | name h1 => exact ⟨fun a h => (by cases h), fun c a h => (by cases h)⟩
  | bin _ _ i1 i2 =>
    refine ⟨fun a h => ?_, fun c a h => ?_⟩
    · cases h with
      | left h => exact i1.1 a h
      | right h => exact i2.1 a h
    · cases h with
      | left h => exact i1.2 c a h
      | right h => exact i2.2 c a h
  | neg _ i =>
    refine ⟨fun a h => ?_, fun c a h => ?_⟩
    · cases h with
      | neg h => exact i.1 a h
    · cases h with
      | neg h => exact i.2 c a h

/-! ### Dictionaries -/

theorem last_append {α : Type} (k : Str) (a b : List (Str × α)) : lookupLast k (a ++ b) = (lookupLast k b).or (lookupLast k a) := by
  induction a with
  | nil => simp [lookupLast]
  | cons x a ih =>
    obtain ⟨y, v⟩ := x
    simp only [List.cons_append, lookupLast, ih]
    cases lookupLast k b <;> simp

theorem last_none {α : Type} {k : Str} {l : List (Str × α)} (h : ∀ v, (k, v) ∉ l) : lookupLast k l = none := by
  induction l with
  | nil => rfl
  | cons x l ih =>
    obtain ⟨y, v⟩ := x
    have hy : y ≠ k := by rintro rfl; exact h v (by simp)
    simp only [lookupLast]
    rw [ih (fun v hv => h v (by simp [hv])), if_neg hy]; rfl

theorem last_unique {α : Type} {k : Str} {v : α} {l : List (Str × α)} (hm : (k, v) ∈ l) (hu : ∀ v', (k, v') ∈ l → v' = v) : lookupLast k l = some v := by
  induction l with
  | nil => cases hm
  | cons x l ih =>
    obtain ⟨y, u⟩ := x
    simp only [lookupLast]
    by_cases hl : ∃ v', (k, v') ∈ l
    · obtain ⟨v', hv'⟩ := hl
      have := hu v' (by simp [hv'])
      subst this
      rw [ih hv' (fun v'' h => hu v'' (by simp [h]))]; rfl
    · have hl' : ∀ v', (k, v') ∉ l := fun v' h => hl ⟨v', h⟩
      rcases List.mem_cons.mp hm with h | h
      · injection h with h1 h2
        subst h1 h2
        rw [last_none hl']; simp
      · exact absurd h (hl' v)

theorem scanned_ok {l : List (Str × Str)} (h : ∀ x t, (x, t) ∈ l → ∃ q, Model.FloatUnit.scanEng t = some q) :
    ∃ ps, scanned l = .ok ps ∧ (∀ x t q, (x, t) ∈ l → Model.FloatUnit.scanEng t = some q → (x, Val.num q) ∈ ps) ∧
      ∀ x v, (x, v) ∈ ps → ∃ t q, (x, t) ∈ l ∧ Model.FloatUnit.scanEng t = some q ∧ v = .num q := by
  induction l with
  | nil => exact ⟨[], rfl, by simp, by simp⟩
  | cons y l ih =>
    obtain ⟨x, t⟩ := y
    obtain ⟨q, hq⟩ := h x t (by simp)
    obtain ⟨ps, h1, h2, h3⟩ := ih (fun x t hm => h x t (by simp [hm]))
    refine ⟨(x, .num q) :: ps, ?_, ?_, ?_⟩
    · unfold scanned; rw [hq]; dsimp only; rw [h1]
    · intro x' t' q' hm hs
      rcases List.mem_cons.mp hm with hm | hm
      · injection hm with e1 e2
        subst e1 e2
        rw [hq] at hs
        injection hs with hs
        subst hs
        simp
      · exact List.mem_cons_of_mem _ (h2 x' t' q' hm hs)
    · intro x' v' hm
      rcases List.mem_cons.mp hm with hm | hm
      · injection hm with e1 e2
        subst e1 e2
        exact ⟨t, q, by simp, hq, rfl⟩
      · obtain ⟨t', q', a, b, c⟩ := h3 x' v' hm
        exact ⟨t', q', by simp [a], b, c⟩

theorem named_ok {l : List (Str × List ℚ)} (h : ∀ x d, (x, d) ∈ l → ∃ y, namify x = some y) :
    ∃ ts, named l = .ok ts ∧ (∀ x d y, (x, d) ∈ l → namify x = some y → (y, Val.vec d) ∈ ts) ∧
      ∀ y v, (y, v) ∈ ts → ∃ x d, (x, d) ∈ l ∧ namify x = some y ∧ v = .vec d := by
  induction l with
  | nil => exact ⟨[], rfl, by simp, by simp⟩
  | cons z l ih =>
    obtain ⟨x, d⟩ := z
    obtain ⟨y, hy⟩ := h x d (by simp)
    obtain ⟨ts, h1, h2, h3⟩ := ih (fun x t hm => h x t (by simp [hm]))
    refine ⟨(y, .vec d) :: ts, ?_, ?_, ?_⟩
    · unfold named; rw [hy]; dsimp only; rw [h1]
    · intro x' d' y' hm hs
      rcases List.mem_cons.mp hm with hm | hm
      · injection hm with e1 e2
        subst e1 e2
        rw [hy] at hs
        injection hs with hs
        subst hs
        simp
      · exact List.mem_cons_of_mem _ (h2 x' d' y' hm hs)
    · intro y' v' hm
      rcases List.mem_cons.mp hm with hm | hm
      · injection hm with e1 e2
        subst e1 e2
        exact ⟨x, d, by simp, hy, rfl⟩
      · obtain ⟨x', d', a, b, c⟩ := h3 y' v' hm
        exact ⟨x', d', by simp [a], b, c⟩

/-! ### Names of traces -/

theorem namify_ref {c : Char} {a : Str} (hc : c = 'V' ∨ c = 'I' ∨ c = 'P') (ha : ∀ x ∈ a, isWord x = true) (hn : a ≠ []) :
    namify (c :: '(' :: (a ++ [')'])) = some (quoted c a) := by
  have hw := word_app ha (close_nw [])
  unfold namify
  have hl : ¬ (lower (c :: '(' :: (a ++ [')'])) = "time".toList ∨ lower (c :: '(' :: (a ++ [')'])) = "frequency".toList) := by
    rcases hc with rfl | rfl | rfl <;> (simp [lower])
  rw [if_neg hl]
  simp only [hw]
  rw [if_pos ⟨hc, hn⟩]
  simp [quoted]

theorem namify_axis {s : Str} (h : lower s = "time".toList ∨ lower s = "frequency".toList) : namify s = some s := by
  unfold namify; rw [if_pos h]

theorem quoted_inj {c c' : Char} {a a' : Str} (h : quoted c a = quoted c' a') : c = c' ∧ a = a' := by
  unfold quoted at h
  injection h with h1 h2
  injection h2 with _ h2
  injection h2 with _ h2
  exact ⟨h1, List.append_cancel_right h2⟩

theorem quoted_axis {c : Char} {a : Str} (hc : c = 'V' ∨ c = 'I' ∨ c = 'P') : ¬ (lower (quoted c a) = "time".toList ∨ lower (quoted c a) = "frequency".toList) := by
  rcases hc with rfl | rfl | rfl <;> (simp [lower, quoted])

theorem traceName_some {s : Str} (h : TraceName s) : ∃ y, namify s = some y := by
  cases h with
  | axis h => exact ⟨_, namify_axis h⟩
  | ref h1 h2 h3 => exact ⟨_, namify_ref h1 (fun x hx => (isWord_iff x).mpr (h3 x hx)) h2⟩

/-- Only `c(a)` becomes `c__a__`. -/
theorem traceName_quoted {s : Str} {c : Char} {a : Str} (hc : c = 'V' ∨ c = 'I' ∨ c = 'P') (h : TraceName s) (hn : namify s = some (quoted c a)) : s = c :: '(' :: (a ++ [')']) := by
  cases h with
  | axis h =>
    rw [namify_axis h] at hn
    injection hn with hn
    subst hn
    exact absurd h (quoted_axis hc)
  | ref h1 h2 h3 =>
    rw [namify_ref h1 (fun x hx => (isWord_iff x).mpr (h3 x hx)) h2] at hn
    injection hn with hn
    obtain ⟨rfl, rfl⟩ := quoted_inj hn
    rfl

theorem traceName_param {s x : Str} (h : TraceName s) (hn : namify s = some x) (h1 : ∀ y, x ≠ y ++ ['_', '_']) (h2 : x.map Char.toLower ≠ "time".toList)
    (h3 : x.map Char.toLower ≠ "frequency".toList) : False := by
  cases h with
  | axis h =>
    rw [namify_axis h] at hn
    injection hn with hn
    subst hn
    rcases h with h | h
    · exact h2 h
    · exact h3 h
  | @ref c a k1 k2 k3 =>
    rw [namify_ref k1 (fun x hx => (isWord_iff x).mpr (k3 x hx)) k2] at hn
    injection hn with hn
    exact h1 (c :: '_' :: '_' :: a) (by rw [← hn]; rfl)

theorem nodup_mem {α : Type} {k : Str} {v v' : α} : ∀ {l : List (Str × α)}, (l.map Prod.fst).Nodup → (k, v) ∈ l → (k, v') ∈ l → v = v' := by
  intro l
  induction l with
  | nil => intro _ h; cases h
  | cons x l ih =>
    intro hd h1 h2
    rw [List.map_cons, List.nodup_cons] at hd
    have out : ∀ u, (k, u) ∈ l → x.1 ≠ k := by
      rintro u hu rfl
      exact hd.1 (List.mem_map.mpr ⟨_, hu, rfl⟩)
    rcases List.mem_cons.mp h1 with h1 | h1 <;> rcases List.mem_cons.mp h2 with h2 | h2
    · rw [← h1] at h2; injection h2 with _ h2; exact h2.symm
    · exact absurd (by rw [← h1]) (out _ h2)
    · exact absurd (by rw [← h2]) (out _ h1)
    · exact ih hd.2 h1 h2

theorem constant_values : lookupLast "pi".toList constants = some (.num 3.1415926536) ∧ lookupLast "e".toList constants = some (.num 2.7182818285) := by
  constructor
  · have : lookupLast "pi".toList constants = some (.num (31415926536 / 10000000000)) := by decide +kernel
    rw [this]; norm_num
  · have : lookupLast "e".toList constants = some (.num (27182818285 / 10000000000)) := by decide +kernel
    rw [this]; norm_num

/-- The dictionary of eval stands for the traces and parameters. -/
theorem env_ok {n : Nat} {w : World} {p : Plot} {e : Expr} (he : Ok e) (hw : Describes n Model.FloatUnit.scanEng p.traces p.params w)
    (ht : ∀ x d, (x, d) ∈ p.traces → TraceName x) (hd : (p.traces.map Prod.fst).Nodup) (hp : (p.params.map Prod.fst).Nodup)
    (hq : ∀ x t, (x, t) ∈ p.params → ∃ q, Model.FloatUnit.scanEng t = some q) :
    ∃ ps ts, scanned p.params = .ok ps ∧ named (p.traces.filter (fun t => contains t.1 (plain e).text)) = .ok ts ∧
      Env n w (fun x => lookupLast x (constants ++ ps ++ ts)) (plain e) := by
  obtain ⟨ps, s1, s2, s3⟩ := scanned_ok hq
  obtain ⟨ts, n1, n2, n3⟩ := named_ok (l := p.traces.filter (fun t => contains t.1 (plain e).text))
    (fun x d hm => traceName_some (ht x d (List.mem_filter.mp hm).1))
  refine ⟨ps, ts, s1, n1, ?_⟩
  have hfine : Fine true (plain e) := fine3 (fine2 (fine1 (ok_fine he)))
  have key : ∀ (c : Char) (a : Str) (l : List ℚ) (f : Nat → ℚ), (c = 'V' ∨ c = 'I' ∨ c = 'P') → Name a → (c :: '(' :: (a ++ [')'])) <:+: (plain e).text →
      (c :: '(' :: (a ++ [')']), l) ∈ p.traces → Samples n l f → ∃ v, lookupLast (quoted c a) (constants ++ ps ++ ts) = some v ∧ Rep n true v f := by
    intro c a l f hc ha hi hm hs
    have hnam := namify_ref hc (name_word ha) ha.ne
    have hmem : (quoted c a, Val.vec l) ∈ ts := n2 _ l _ (List.mem_filter.mpr ⟨hm, contains_infix _ _ hi⟩) hnam
    have hl : lookupLast (quoted c a) ts = some (.vec l) := by
      refine last_unique hmem (fun v' hv' => ?_)
      obtain ⟨x, d, a1, a2, a3⟩ := n3 _ _ hv'
      have a4 := (List.mem_filter.mp a1).1
      have := traceName_quoted hc (ht x d a4) a2
      subst this
      rw [a3, nodup_mem hd a4 hm]
    refine ⟨.vec l, ?_, Or.inr ⟨rfl, l, rfl, hs.1, hs.2⟩⟩
    rw [last_append, hl]; rfl
  refine ⟨?_, ?_, ?_⟩
  · intro a f hr hv
    obtain ⟨l, h1, h2⟩ := hw.voltage a f hv
    exact key 'V' a l f (Or.inl rfl) ((refers_ref hfine).1 a hr) (refers_infix hr) h1 h2
  · intro c a f hr hv
    obtain ⟨l, h1, h2⟩ := hw.element c a f hv
    obtain ⟨h3, h4⟩ := (refers_ref hfine).2 c a hr
    exact key c a l f (Or.inr h3) h4 (refers_infix hr) h1 h2
  · intro x q hr hv
    obtain ⟨k1, k2, k3⟩ := refers_name he hr
    have hts : lookupLast x ts = none := by
      refine last_none (fun v hv => ?_)
      obtain ⟨y, d, a1, a2, _⟩ := n3 _ _ hv
      exact traceName_param (ht y d (List.mem_filter.mp a1).1) a2 k1 k2 k3
    refine ⟨.num q, ?_, Or.inl ⟨rfl, q, rfl, fun _ _ => rfl⟩⟩
    show lookupLast x (constants ++ ps ++ ts) = _
    rw [last_append, hts, Option.none_or, last_append]
    rcases hw.param x q hv with ⟨t, h1, h2⟩ | ⟨h1, h2⟩
    · have : lookupLast x ps = some (.num q) := by
        refine last_unique (s2 x t q h1 h2) (fun v' hv' => ?_)
        obtain ⟨t', q', b1, b2, b3⟩ := s3 _ _ hv'
        have := nodup_mem hp b1 h1
        subst this
        rw [h2] at b2
        injection b2 with b2
        rw [b3, b2]
      rw [this]; rfl
    · have : lookupLast x ps = none := by
        refine last_none (fun v hv => ?_)
        obtain ⟨t', q', b1, _, _⟩ := s3 _ _ hv
        exact h1 t' b1
      rw [this, Option.none_or]
      rcases h2 with ⟨rfl, rfl⟩ | ⟨rfl, rfl⟩
      · exact constant_values.1
      · exact constant_values.2

/-! ### C85 -/

/-- C85. An alias of the header whose formula is written as QSPICE writes it gives at every point the value of the formula: differences of voltages, net 0 as the
ground, currents and powers, numbers with and without unit, parameters as the number reader of spicelib reads them. -/
theorem C85_alias (n : Nat) (w : World) (p : Plot) (ali : Str) (e : Expr) (f : Nat → ℚ) (k : Kind)
    (hk : ("I(".toList <+: ali ∧ k = .current) ∨ ("V(".toList <+: ali ∧ k = .voltage))
    (hd : (p.traces.map Prod.fst).Nodup) (hp : (p.params.map Prod.fst).Nodup) (ha : (p.aliases.map Prod.fst).Nodup)
    (ht : ∀ x d, (x, d) ∈ p.traces → TraceName x) (hq : ∀ x t, (x, t) ∈ p.params → ∃ q, Model.FloatUnit.scanEng t = some q)
    (hw : Describes n Model.FloatUnit.scanEng p.traces p.params w) (hm : (ali, e.text) ∈ p.aliases) (he : Ok e) (hv : e.value w = some f) :
    (e.varies = true → ∃ l, compute p ali = .ok (k, .vec l) ∧ Samples n l f) ∧
    (e.varies = false → ∃ q, compute p ali = .ok (k, .num q) ∧ ∀ i, i < n → f i = q) := by
  obtain ⟨ps, ts, h1, h2, h3⟩ := env_ok he hw ht hd hp hq
  have hfine : Fine true (plain e) := fine3 (fine2 (fine1 (ok_fine he)))
  obtain ⟨v, h4, h5⟩ := ev_value hfine f h3 (value_plain he f hv)
  rw [plain_varies he] at h5
  suffices hc : compute p ali = .ok (k, v) by
    rcases h5 with ⟨hb, q, rfl, h⟩ | ⟨hb, l, rfl, hl, h⟩
    · exact ⟨fun h => (by rw [hb] at h; cases h), fun _ => ⟨q, hc, h⟩⟩
    · exact ⟨fun _ => ⟨l, hc, hl, h⟩, fun h => (by rw [hb] at h; cases h)⟩
  have hal : lookupLast ali p.aliases = some e.text := last_unique hm (fun v' hv' => nodup_mem ha hv' hm)
  have hkind : kindOf ali = some k := by
    unfold kindOf
    rcases hk with ⟨hpre, rfl⟩ | ⟨hpre, rfl⟩
    · rw [if_pos (List.isPrefixOf_iff_prefix.mpr hpre)]
    · obtain ⟨r, rfl⟩ := hpre
      rfl
  unfold compute
  rw [hal]
  dsimp only
  rw [hkind, expand_text e he]
  dsimp only
  rw [h1]
  dsimp only
  rw [h2]
  dsimp only
  rw [toPython_text e he, eval_expr _ (bare5 (bare4 he)) h4]

/-- C85. The line of an alias: its name and its formula. -/
theorem C85_line (a f : Str) (ha : a ≠ [] ∧ ∀ c ∈ a, Model.PyStr.isSpace c = false) (hf : f ≠ [] ∧ ∀ c ∈ f, Model.PyStr.isSpace c = false) :
    aliasLine (".alias ".toList ++ a ++ " ".toList ++ f) = some (a, f) := by
  have hs : ∀ s : Str, (∀ c ∈ s, Model.PyStr.isSpace c = false) → Model.PyStr.strip s = s ∧ ∀ c ∈ s, c ≠ ' ' := by
    intro s h
    refine ⟨Lemmas.FloatUnit.strip_visible (fun c hc => h c (List.mem_of_mem_head? hc)) (fun c hc => h c (List.mem_of_mem_getLast? hc)), ?_⟩
    rintro c hc rfl
    exact absurd (h _ hc) (by decide)
  unfold aliasLine
  rw [show ".alias ".toList ++ a ++ " ".toList ++ f = ".alias".toList ++ ' ' :: (a ++ ' ' :: f) by simp, Lemmas.PyStr.splitOn_cons ' ' _ _ (by decide),
    Lemmas.PyStr.splitOn_cons ' ' _ _ (hs a ha.2).2, Lemmas.PyStr.splitOn_clean ' ' _ (hs f hf.2).2]
  dsimp only
  rw [(hs a ha.2).1, (hs f hf.2).1]

/-- C85. The current of a resistor between two nets, as QSPICE stores it: `(Gmho*V(a,b))`. -/
theorem C85_resistor (n : Nat) (p : Plot) (ali a b g : Str) (q : ℚ) (la lb : List ℚ) (fa fb : Nat → ℚ)
    (hk : "I(".toList <+: ali) (hd : (p.traces.map Prod.fst).Nodup) (hp : (p.params.map Prod.fst).Nodup) (ha : (p.aliases.map Prod.fst).Nodup)
    (ht : ∀ x d, (x, d) ∈ p.traces → TraceName x) (hq : ∀ x t, (x, t) ∈ p.params → ∃ q, Model.FloatUnit.scanEng t = some q)
    (hg : Numeral g q) (hlast : ∀ c, g.getLast? = some c → c.isDigit = true) (na : Name a) (nb : Name b) (za : a ≠ ['0']) (zb : b ≠ ['0'])
    (ma : ("V(".toList ++ a ++ ")".toList, la) ∈ p.traces) (mb : ("V(".toList ++ b ++ ")".toList, lb) ∈ p.traces) (sa : Samples n la fa) (sb : Samples n lb fb)
    (hm : (ali, "(".toList ++ g ++ "mho*V(".toList ++ a ++ ",".toList ++ b ++ "))".toList) ∈ p.aliases) :
    ∃ l, compute p ali = .ok (.current, .vec l) ∧ Samples n l (fun i => q * (fa i - fb i)) := by
  let w : World := ⟨fun x => if x = a then some fa else if x = b then some fb else none, fun _ _ => none, fun _ => none⟩
  have hval : ∀ x y : Nat → ℚ, w.voltage a = some x → w.voltage b = some y → (Expr.bin .mul (.num g "mho".toList q) (.diff a b)).value w = some (fun i => q * (x i - y i)) := by
    intro x y hx hy
    simp only [Expr.value, World.net, if_neg za, if_neg zb, hx, hy, Option.map_some, Option.bind_some, Op.fn]
  have hwa : w.voltage a = some fa := by show (if a = a then _ else _) = _; rw [if_pos rfl]
  have hb' : ∃ y, w.voltage b = some y ∧ Samples n lb y := by
    by_cases hab : b = a
    · refine ⟨fa, by show (if b = a then _ else _) = _; rw [if_pos hab], ?_⟩
      subst hab
      rw [nodup_mem hd mb ma]
      exact sa
    · exact ⟨fb, by show (if b = a then _ else if b = b then _ else _) = _; rw [if_neg hab, if_pos rfl], sb⟩
  obtain ⟨y, hy, sy⟩ := hb'
  have hw : Describes n Model.FloatUnit.scanEng p.traces p.params w := by
    refine ⟨?_, ?_, ?_⟩
    · intro x f hf
      have hf' : (if x = a then some fa else if x = b then some fb else none) = some f := hf
      by_cases hxa : x = a
      · rw [if_pos hxa] at hf'
        injection hf' with hf'
        subst hxa hf'
        exact ⟨la, by simpa using ma, sa⟩
      · rw [if_neg hxa] at hf'
        by_cases hxb : x = b
        · rw [if_pos hxb] at hf'
          injection hf' with hf'
          subst hxb hf'
          exact ⟨lb, by simpa using mb, sb⟩
        · rw [if_neg hxb] at hf'; cases hf'
    · intro c x f hf; cases hf
    · intro x q hf; cases hf
  have hok : Ok (.bin .mul (.num g "mho".toList q) (.diff a b)) := .bin (.num hg (Or.inr ⟨Or.inl rfl, hlast⟩)) (.diff na nb (fun h => za h.1))
  obtain ⟨l, h1, hl, hs⟩ := (C85_alias n w p ali _ _ .current (Or.inl ⟨hk, rfl⟩) hd hp ha ht hq hw (by simpa [Expr.text, Op.char] using hm) hok (hval fa y hwa hy)).1 rfl
  refine ⟨l, h1, hl, fun i hi => ?_⟩
  rw [hs i hi]
  have e1 := sy.2 i hi
  rw [sb.2 i hi] at e1
  injection e1 with e1
  show some (q * (fa i - y i)) = some (q * (fa i - fb i))
  rw [e1]

/-! ### A file -/

def samplePlot : Plot :=
  { traces := [("Time".toList, [0, 1, 2]), ("V(in)".toList, [1, 2, 3]), ("V(out)".toList, [0, 1, 5]), ("I(V1)".toList, [1, 0, 1])]
    params := [("temp".toList, "27".toList), ("gain".toList, "2k".toList)]
    aliases := [("I(R1)".toList, "(0.5mho*V(in,out))".toList), ("I(R2)".toList, "(1e-3mho*V(0,out))".toList), ("V(x)".toList, "((gain*V(in,0))-(-I(V1)))".toList),
      ("V(c)".toList, "gain".toList), ("Freq".toList, "V(in)".toList), ("I(R3)".toList, "(1mho*V(n1mho,in))".toList), ("V(y)".toList, "I(R1)".toList)] }

/-- C85. A file with three points: the current of a resistor, one with a net at ground, an expression with a parameter. -/
theorem C85_sample :
    (compute samplePlot "I(R1)".toList).toOption = some (.current, .vec [1 / 2, 1 / 2, -1]) ∧
    (compute samplePlot "I(R2)".toList).toOption = some (.current, .vec [0, -1 / 1000, -1 / 200]) ∧
    (compute samplePlot "V(x)".toList).toOption = some (.voltage, .vec [2001, 4000, 6001]) := by
  refine ⟨?_, ?_, ?_⟩ <;> decide +kernel

/-- The error raised. -/
def refusal {α β : Type} : Except α β → Option α
  | .error e => some e
  | .ok _ => none

/-- C85, limits. An alias without a trace in its formula is one number instead of one value per point; one that is neither a current nor a voltage, although its name is
listed, raises NotImplementedError; a unit is removed also inside the name of a net (here the trace exists, yet there is an error); an alias that refers to another alias is an error;
a formula with a blank makes the file unreadable. -/
theorem C85_limits :
    (compute samplePlot "V(c)".toList).toOption = some (.voltage, .num 2000) ∧
    "Freq".toList ∈ traceNames samplePlot ∧ refusal (compute samplePlot "Freq".toList) = some .notImplemented ∧
    refusal (compute { samplePlot with traces := ("V(n1mho)".toList, [4, 4, 4]) :: samplePlot.traces } "I(R3)".toList) = some .runtime ∧
    refusal (compute samplePlot "V(y)".toList) = some .runtime ∧
    aliasLine ".alias I(R1) (0.5mho*V(in,out))".toList = some ("I(R1)".toList, "(0.5mho*V(in,out))".toList) ∧
    aliasLine ".alias I(R1) (0.5mho * V(in,out))".toList = none := by
  refine ⟨?_, ?_, ?_, ?_, ?_, ?_, ?_⟩ <;> decide +kernel

end Props.Alias
