import Verif.Model.Params
import Verif.Spec.ParamList
import Mathlib.Tactic.SplitIfs
/-
C36: reading and writing the parameters of a component line.
-/
namespace Props.Params
open Model.Params Model.PyStr
open Spec.ParamList hiding Str

/-! ### Tokens -/

theorem step_plain (s : Tk) (c : Char) (h1 : c ≠ '"') (h2 : c ≠ '\'') (h3 : c ≠ '{') (h4 : c ≠ '}')
    (h5 : s.quote ≠ none ∨ s.func = true ∨ (c ≠ ',' ∧ c ≠ '=' ∧ isSpace c = false)) : s.step c = { s with cur := s.cur ++ [c] } := by
  unfold Tk.step
  rw [if_neg (by simp [h1, h2]), if_neg h3, if_neg h4, if_neg, if_neg]
  · rintro ⟨a, b, d⟩
    rcases h5 with h | h | h
    · exact h b
    · rw [d] at h; cases h
    · rw [h.2.2] at a; cases a
  · rintro ⟨a, b, d⟩
    rcases h5 with h | h | h
    · exact h b
    · rw [d] at h; cases h
    · rcases a with a | a
      · exact h.1 a
      · exact h.2.1 a

theorem fold_quoted (q : Char) (body : Str) (hb : ∀ c ∈ body, c ≠ q ∧ c ≠ '{' ∧ c ≠ '}') (f : Bool) (cur : Str) (toks : List Str) :
    body.foldl Tk.step ⟨some q, f, cur, toks⟩ = ⟨some q, f, cur ++ body, toks⟩ := by
  induction body generalizing cur with
  | nil => simp
  | cons c body ih =>
    obtain ⟨h1, h2, h3⟩ := hb c List.mem_cons_self
    rw [List.foldl_cons]
    have hs : Tk.step ⟨some q, f, cur, toks⟩ c = ⟨some q, f, cur ++ [c], toks⟩ := by
      by_cases hc : c = '"' ∨ c = '\''
      · unfold Tk.step
        rw [if_pos hc]
        have : ¬ (some q = some c) := by simpa using Ne.symm h1
        simp [this]
      · rw [not_or] at hc
        exact step_plain _ _ hc.1 hc.2 h2 h3 (Or.inl (by simp))
    rw [hs, ih (fun d hd => hb d (List.mem_cons_of_mem _ hd))]
    simp

theorem fold_braces (body : Str) (hb : ∀ c ∈ body, c ∉ ['{', '}', '"', '\'']) (cur : Str) (toks : List Str) :
    body.foldl Tk.step ⟨none, true, cur, toks⟩ = ⟨none, true, cur ++ body, toks⟩ := by
  induction body generalizing cur with
  | nil => simp
  | cons c body ih =>
    have h := hb c List.mem_cons_self
    simp only [List.mem_cons, List.not_mem_nil, or_false, not_or] at h
    rw [List.foldl_cons, step_plain _ _ h.2.2.1 h.2.2.2 h.1 h.2.1 (Or.inr (Or.inl rfl)), ih (fun d hd => hb d (List.mem_cons_of_mem _ hd))]
    simp

theorem fold_piece (p : Str) (hp : Piece p) (cur : Str) (toks : List Str) :
    p.foldl Tk.step ⟨none, false, cur, toks⟩ = ⟨none, false, cur ++ p, toks⟩ := by
  cases hp with
  | plain c hs hc =>
    simp only [List.mem_cons, List.not_mem_nil, or_false, not_or] at hc
    obtain ⟨a, b, d, e, f, g⟩ := hc
    exact step_plain _ _ f g d e (Or.inr (Or.inr ⟨a, b, hs⟩))
  | quoted q body hq hb =>
    rw [List.foldl_append]
    have h1 : Tk.step ⟨none, false, cur, toks⟩ q = ⟨some q, false, cur ++ [q], toks⟩ := by unfold Tk.step; rw [if_pos hq]; simp
    show Tk.step (List.foldl Tk.step (Tk.step ⟨none, false, cur, toks⟩ q) body) q = _
    rw [h1, fold_quoted q body hb]
    unfold Tk.step; rw [if_pos hq]; simp
  | braces body hb =>
    rw [List.foldl_append]
    have h1 : Tk.step ⟨none, false, cur, toks⟩ '{' = ⟨none, true, cur ++ ['{'], toks⟩ := rfl
    show Tk.step (List.foldl Tk.step (Tk.step ⟨none, false, cur, toks⟩ '{') body) '}' = _
    rw [h1, fold_braces body hb]
    unfold Tk.step; simp

theorem fold_word (w : Str) (hw : Word w) (cur : Str) (toks : List Str) :
    w.foldl Tk.step ⟨none, false, cur, toks⟩ = ⟨none, false, cur ++ w, toks⟩ := by
  obtain ⟨ps, hne, hps, rfl⟩ := hw
  clear hne
  induction ps generalizing cur with
  | nil => simp
  | cons p ps ih =>
    rw [List.flatten_cons, List.foldl_append, fold_piece p (hps p List.mem_cons_self), ih _ (fun x hx => hps x (List.mem_cons_of_mem _ hx))]
    simp

theorem piece_ends (p : Str) (hp : Piece p) : ∃ a b, p.head? = some a ∧ p.getLast? = some b ∧ isSpace a = false ∧ isSpace b = false := by
  cases hp with
  | plain c hs hc => exact ⟨c, c, rfl, rfl, hs, hs⟩
  | quoted q body hq hb =>
    have : isSpace q = false := by rcases hq with rfl | rfl <;> decide
    exact ⟨q, q, rfl, by simp [List.getLast?_cons], this, this⟩
  | braces body hb => exact ⟨'{', '}', rfl, by simp [List.getLast?_cons], by decide, by decide⟩

theorem word_ends (w : Str) (hw : Word w) : ∃ a b, w.head? = some a ∧ w.getLast? = some b ∧ isSpace a = false ∧ isSpace b = false := by
  obtain ⟨ps, hne, hps, rfl⟩ := hw
  cases ps with
  | nil => exact absurd rfl hne
  | cons p ps =>
    obtain ⟨a, _, h1, _, h3, _⟩ := piece_ends p (hps p List.mem_cons_self)
    have hl := List.dropLast_concat_getLast (l := p :: ps) (by simp)
    obtain ⟨_, b, _, h2, _, h4⟩ := piece_ends ((p :: ps).getLast (by simp)) (hps _ (List.getLast_mem _))
    refine ⟨a, b, ?_, ?_, h3, h4⟩
    · rw [List.flatten_cons, List.head?_append, h1]; rfl
    · rw [← hl, List.flatten_append, List.flatten_cons, List.flatten_nil, List.append_nil, List.getLast?_append, h2]; rfl

theorem word_ne_nil (w : Str) (hw : Word w) : w ≠ [] := by
  obtain ⟨a, _, h, _⟩ := word_ends w hw
  intro h0; rw [h0] at h; cases h

theorem strip_word (w : Str) (hw : Word w) : strip w = w := by
  obtain ⟨a, b, h1, h2, h3, h4⟩ := word_ends w hw
  unfold strip
  have hl : lstrip w = w := by
    cases w with
    | nil => cases h1
    | cons c w =>
      simp only [List.head?_cons, Option.some.injEq] at h1
      subst h1
      unfold lstrip
      rw [List.dropWhile_cons_of_neg (by simp [h3])]
  rw [hl]
  unfold rstrip
  have h2' : w.reverse.head? = some b := by rw [List.head?_reverse]; exact h2
  cases hr : w.reverse with
  | nil => rw [hr] at h2'; cases h2'
  | cons c r =>
    rw [hr] at h2'
    simp only [List.head?_cons, Option.some.injEq] at h2'
    subst h2'
    rw [List.dropWhile_cons_of_neg (by simp [h4]), ← hr, List.reverse_reverse]

theorem step_space (c : Char) (hc : isSpace c = true) (s : Tk) (hq : s.quote = none) (hf : s.func = false) : s.step c = s.flush := by
  have hne : ∀ d : Char, isSpace d = false → c ≠ d := by intro d hd h; rw [h, hd] at hc; cases hc
  unfold Tk.step
  rw [if_neg (by rw [not_or]; exact ⟨hne _ (by decide), hne _ (by decide)⟩), if_neg (hne _ (by decide)), if_neg (hne _ (by decide)),
    if_neg (by
          rintro ⟨h | h, _⟩
          · exact hne _ (by decide) h
          · exact hne _ (by decide) h), if_pos ⟨hc, hq, hf⟩]

theorem flush_flush (s : Tk) : s.flush.flush = s.flush := by
  unfold Tk.flush
  by_cases h : s.cur = []
  · simp [h]
  · simp [h]

theorem flush_nil (q : Option Char) (f : Bool) (toks : List Str) : (⟨q, f, [], toks⟩ : Tk).flush = ⟨q, f, [], toks⟩ := by simp [Tk.flush]

theorem flush_word (w : Str) (hw : Word w) (q : Option Char) (f : Bool) (toks : List Str) :
    (⟨q, f, w, toks⟩ : Tk).flush = ⟨q, f, [], toks ++ [w]⟩ := by
  simp [Tk.flush, word_ne_nil w hw, strip_word w hw]

theorem flush_quote (s : Tk) : s.flush.quote = s.quote ∧ s.flush.func = s.func := by unfold Tk.flush; split_ifs <;> exact ⟨rfl, rfl⟩

/-- Blanks flush. -/
theorem fold_blank (b : Str) (hb : Blank b) (s : Tk) (hq : s.quote = none) (hf : s.func = false) :
    b.foldl Tk.step s = if b = [] then s else s.flush := by
  induction b generalizing s with
  | nil => simp
  | cons c b ih =>
    rw [List.foldl_cons, step_space c (hb c List.mem_cons_self) s hq hf, if_neg (by simp)]
    rw [ih (fun d hd => hb d (List.mem_cons_of_mem _ hd)) s.flush ((flush_quote s).1.trans hq) ((flush_quote s).2.trans hf)]
    split_ifs
    · rfl
    · exact flush_flush s

/-- An operator after a word, and after nothing. -/
theorem step_op (c : Char) (hc : c = ',' ∨ c = '=') (w : Str) (hw : Word w) (toks : List Str) :
    Tk.step ⟨none, false, w, toks⟩ c = ⟨none, false, [], toks ++ [w, [c]]⟩ := by
  unfold Tk.step
  rw [if_neg (by rcases hc with rfl | rfl <;> decide), if_neg (by rcases hc with rfl | rfl <;> decide),
    if_neg (by rcases hc with rfl | rfl <;> decide), if_pos ⟨hc, rfl, rfl⟩, if_neg (word_ne_nil w hw), strip_word w hw]

theorem step_op_nil (c : Char) (hc : c = ',' ∨ c = '=') (toks : List Str) :
    Tk.step ⟨none, false, [], toks⟩ c = ⟨none, false, [], toks⟩ := by
  unfold Tk.step
  rw [if_neg (by rcases hc with rfl | rfl <;> decide), if_neg (by rcases hc with rfl | rfl <;> decide),
    if_neg (by rcases hc with rfl | rfl <;> decide), if_pos ⟨hc, rfl, rfl⟩, if_pos rfl]

/-- The tokens of an item; the equal sign is only among them when it follows the name directly. -/
def tokens (it : Item) : List Str :=
  it.name :: (if it.b1 = [] then ["=".toList] else []) ++ it.first :: it.more.flatMap (fun bv => [",".toList, bv.2])

theorem fold_more (more : List (Str × Str)) (hm : ∀ bv ∈ more, Blank bv.1 ∧ Word bv.2) (w : Str) (hw : Word w) (toks : List Str) :
    ∃ w' ts, Word w' ∧ (more.flatMap (fun bv => ',' :: bv.1 ++ bv.2)).foldl Tk.step ⟨none, false, w, toks⟩ = ⟨none, false, w', toks ++ ts⟩ ∧
      ts ++ [w'] = w :: more.flatMap (fun bv => [",".toList, bv.2]) := by
  induction more generalizing w toks with
  | nil => exact ⟨w, [], hw, by simp, by simp⟩
  | cons bv more ih =>
    obtain ⟨hb, hv⟩ := hm bv List.mem_cons_self
    obtain ⟨w', ts, h1, h2, h3⟩ := ih (fun x hx => hm x (List.mem_cons_of_mem _ hx)) bv.2 hv (toks ++ [w, ",".toList])
    refine ⟨w', [w, ",".toList] ++ ts, h1, ?_, ?_⟩
    · rw [List.flatMap_cons, List.foldl_append, List.foldl_append, List.foldl_cons, step_op ',' (Or.inl rfl) w hw, fold_blank bv.1 hb _ rfl rfl]
      have hbl : (if bv.1 = [] then (⟨none, false, [], toks ++ [w, [',']]⟩ : Tk) else (⟨none, false, [], toks ++ [w, [',']]⟩ : Tk).flush) =
          ⟨none, false, [], toks ++ [w, [',']]⟩ := by split_ifs; rfl; exact flush_nil _ _ _
      rw [hbl, fold_word bv.2 hv, List.nil_append]
      rw [← List.append_assoc]
      exact h2
    · rw [List.flatMap_cons, List.append_assoc, h3]; rfl

theorem fold_item (it : Item) (h : it.Ok) (toks : List Str) :
    ∃ w' ts, Word w' ∧ it.text.foldl Tk.step ⟨none, false, [], toks⟩ = ⟨none, false, w', toks ++ ts⟩ ∧ ts ++ [w'] = tokens it := by
  have hname := fold_word it.name h.name [] toks
  -- after the equal sign and the blanks around it
  have key : (it.name ++ it.b1 ++ '=' :: it.b2).foldl Tk.step ⟨none, false, [], toks⟩ =
      ⟨none, false, [], toks ++ it.name :: (if it.b1 = [] then ["=".toList] else [])⟩ := by
    rw [List.foldl_append, List.foldl_append, hname, List.nil_append, List.foldl_cons, fold_blank it.b1 h.b1 _ rfl rfl]
    by_cases hb1 : it.b1 = []
    · rw [if_pos hb1, if_pos hb1, step_op '=' (Or.inr rfl) _ h.name, fold_blank it.b2 h.b2 _ rfl rfl]
      split_ifs
      · rfl
      · exact flush_nil _ _ _
    · rw [if_neg hb1, if_neg hb1, flush_word _ h.name, step_op_nil '=' (Or.inr rfl), fold_blank it.b2 h.b2 _ rfl rfl]
      split_ifs
      · rfl
      · exact flush_nil _ _ _
  obtain ⟨w', ts, g1, g2, g3⟩ := fold_more it.more h.more it.first h.first (toks ++ it.name :: (if it.b1 = [] then ["=".toList] else []))
  refine ⟨w', it.name :: (if it.b1 = [] then ["=".toList] else []) ++ ts, g1, ?_, ?_⟩
  · unfold Item.text
    rw [List.foldl_append, List.foldl_append, key, fold_word it.first h.first, List.nil_append, g2, List.append_assoc]
  · rw [List.append_assoc, g3]; rfl

/-- The tokens of a list of items. -/
theorem fold_items (l : List (Item × Str)) (h : Separated l) (toks : List Str) :
    ((textOf l).foldl Tk.step ⟨none, false, [], toks⟩).flush = ⟨none, false, [], toks ++ l.flatMap (fun ib => tokens ib.1)⟩ := by
  induction l generalizing toks with
  | nil => simp [textOf, Tk.flush]
  | cons x l ih =>
    obtain ⟨it, b⟩ := x
    have hok : it.Ok := by cases l with
      | nil => exact h.1
      | cons y l => exact h.1
    have hb : Blank b := by cases l with
      | nil => exact h.2
      | cons y l => exact h.2.1
    obtain ⟨w', ts, g1, g2, g3⟩ := fold_item it hok toks
    have htext : textOf ((it, b) :: l) = it.text ++ b ++ textOf l := rfl
    rw [htext, List.foldl_append, List.foldl_append, g2, fold_blank b hb _ rfl rfl, List.flatMap_cons]
    simp only
    have hfl : (⟨none, false, w', toks ++ ts⟩ : Tk).flush = ⟨none, false, [], toks ++ tokens it⟩ := by
      rw [flush_word w' g1, List.append_assoc, g3]
    cases l with
    | nil =>
      show Tk.flush (if b = [] then _ else _) = _
      split_ifs
      · rw [hfl]; simp
      · rw [flush_flush, hfl]; simp
    | cons y l =>
      have hne : b ≠ [] := h.2.2.1
      rw [if_neg hne, hfl, ih h.2.2.2, List.append_assoc]

/-! ### From tokens to parameters -/

/-- The value read for an item: a single value, or a list of values. -/
def valueOf (it : Item) : PV := if it.more = [] then .one (.tok it.first) else .many (it.values.map .tok)

theorem put_put (d : List (Str × PV)) (k : Str) (v v' : PV) : put (put d k v) k v' = put d k v' := by
  induction d with
  | nil => simp [put]
  | cons x d ih =>
    obtain ⟨q, w⟩ := x
    by_cases h : q = k
    · simp [put, h]
    · simp [put, h, ih]

theorem lookup_put (d : List (Str × PV)) (k k' : Str) (v : PV) : (put d k v).lookup k' = if k' = k then some v else d.lookup k' := by
  induction d with
  | nil =>
    by_cases h : k' = k
    · simp [put, List.lookup_cons, h]
    · have h2 : (k' == k) = false := by simpa using h
      simp [put, List.lookup_cons, h, h2]
  | cons x d ih =>
    obtain ⟨q, w⟩ := x
    by_cases hq : q = k
    · subst hq
      by_cases h : k' = q
      · simp [put, List.lookup_cons, h]
      · have h2 : (k' == q) = false := by simpa using h
        simp [put, List.lookup_cons, h, h2]
    · simp only [put, if_neg hq, List.lookup_cons, ih]
      by_cases h1 : k' = q
      · subst h1; simp [hq]
      · have : (k' == q) = false := by simpa using h1
        simp [this]

theorem piece_op (p : Str) (hp : Piece p) (c : Char) (hc : c = ',' ∨ c = '=') (r : Str) (h : p ++ r = [c]) : False := by
  cases hp with
  | plain d hs hd =>
    simp only [List.cons_append, List.nil_append, List.cons.injEq] at h
    rw [h.1] at hd
    rcases hc with rfl | rfl <;> exact hd (by decide)
  | quoted q body hq hb => simp at h
  | braces body hb => simp at h

theorem word_op (w : Str) (hw : Word w) : w ≠ "=".toList ∧ w ≠ ",".toList := by
  obtain ⟨ps, hne, hps, rfl⟩ := hw
  cases ps with
  | nil => exact absurd rfl hne
  | cons p ps =>
    exact ⟨fun h => piece_op p (hps p List.mem_cons_self) '=' (Or.inr rfl) ps.flatten h,
      fun h => piece_op p (hps p List.mem_cons_self) ',' (Or.inl rfl) ps.flatten h⟩

/-- A name that _parse_params takes as the name of a parameter wherever it stands. -/
def NameOk (numeric : Str → Bool) (n : Str) : Prop := n ∉ keywords ∧ n ∉ verilogTypes ∧ numeric n = false

variable (numeric : Str → Bool) (shown : PV → Str)

theorem parseTokens_append (s : Ps) (a b : List Str) :
    parseTokens numeric shown s (a ++ b) = (parseTokens numeric shown s a).bind (fun s => parseTokens numeric shown s b) := by
  induction a generalizing s with
  | nil => rfl
  | cons t a ih =>
    simp only [List.cons_append, parseTokens]
    cases Ps.step numeric shown s t with
    | none => rfl
    | some s' => exact ih s'

theorem parse_more (more : List (Str × Str)) (hm : ∀ bv ∈ more, Blank bv.1 ∧ Word bv.2) (k : Str) (hk : k ≠ []) (d : List (Str × PV)) (v : PV) :
    parseTokens numeric shown ⟨put d k v, none, some k, false⟩ (more.flatMap (fun bv => [",".toList, bv.2])) =
      some ⟨put d k ((more.map Prod.snd).foldl appendTo v), none, some k, false⟩ := by
  induction more generalizing v with
  | nil => rfl
  | cons bv more ih =>
    have hw := word_op bv.2 (hm bv List.mem_cons_self).2
    rw [List.flatMap_cons, parseTokens_append]
    have h1 : parseTokens numeric shown ⟨put d k v, none, some k, false⟩ [",".toList, bv.2] = some ⟨put d k (appendTo v bv.2), none, some k, false⟩ := by
      simp only [parseTokens]
      have e1 : Ps.step numeric shown ⟨put d k v, none, some k, false⟩ ",".toList = some ⟨put d k v, none, some k, true⟩ := by
        unfold Ps.step
        rw [if_neg (by decide), if_pos rfl]
        simp [hk, lookup_put]
      rw [e1]
      simp only [Option.bind_some]
      unfold Ps.step
      rw [if_neg hw.1, if_neg hw.2, if_pos rfl]
      simp only [lookup_put, if_true, put_put]
      rfl
    rw [h1]
    simp only [Option.bind_some, List.map_cons, List.foldl_cons]
    exact ih (fun x hx => hm x (List.mem_cons_of_mem _ hx)) _

theorem appendTo_many (l : List Atom) (ts : List Str) : ts.foldl appendTo (.many l) = .many (l ++ ts.map .tok) := by
  induction ts generalizing l with
  | nil => simp
  | cons t ts ih => rw [List.foldl_cons]; show ts.foldl appendTo (.many (l ++ [.tok t])) = _; rw [ih]; simp

theorem appendTo_value (it : Item) : (it.more.map Prod.snd).foldl appendTo (.one (.tok it.first)) = valueOf it := by
  unfold valueOf
  cases h : it.more with
  | nil => rfl
  | cons bv more =>
    rw [if_neg (by simp), List.map_cons, List.foldl_cons]
    show (more.map Prod.snd).foldl appendTo (.many [.tok it.first, .tok bv.2]) = _
    rw [appendTo_many]
    simp [Item.values, h]

theorem parse_item (it : Item) (h : it.Ok) (hn : NameOk numeric it.name) (d : List (Str × PV)) (last : Option Str) :
    parseTokens numeric shown ⟨d, none, last, false⟩ (tokens it) = some ⟨put d it.name (valueOf it), none, some it.name, false⟩ := by
  have hw := word_op it.name h.name
  have hf := word_op it.first h.first
  have e1 : Ps.step numeric shown ⟨d, none, last, false⟩ it.name = some ⟨d, some it.name, last, false⟩ := by
    unfold Ps.step
    rw [if_neg hw.1, if_neg hw.2, if_neg (by simp)]
    simp only
    rw [if_neg hn.1, if_neg hn.2.1]
    cases last.bind (fun l => d.lookup l) with
    | none => rfl
    | some v => simp [hn.2.2]
  have e2 : parseTokens numeric shown ⟨d, some it.name, last, false⟩ (if it.b1 = [] then ["=".toList] else []) = some ⟨d, some it.name, last, false⟩ := by
    split_ifs
    · simp only [parseTokens]
      unfold Ps.step
      rw [if_pos rfl]
      simp
    · rfl
  have e3 : Ps.step numeric shown ⟨d, some it.name, last, false⟩ it.first = some ⟨put d it.name (.one (.tok it.first)), none, some it.name, false⟩ := by
    unfold Ps.step
    rw [if_neg hf.1, if_neg hf.2, if_neg (by simp)]
  unfold tokens
  rw [List.cons_append]
  simp only [parseTokens, e1, Option.bind_some]
  rw [parseTokens_append, e2]
  simp only [Option.bind_some, parseTokens, e3]
  rw [parse_more numeric shown it.more h.more it.name (word_ne_nil _ h.name), appendTo_value]

theorem separated_ok : ∀ (l : List (Item × Str)), Separated l → ∀ ib ∈ l, ib.1.Ok := by
  intro l
  induction l with
  | nil => intro _ ib hib; cases hib
  | cons x l ih =>
    intro h ib hib
    cases l with
    | nil => rw [List.mem_singleton] at hib; subst hib; exact h.1
    | cons y l =>
      rcases List.mem_cons.1 hib with rfl | hib
      · exact h.1
      · exact ih h.2.2.2 ib hib

theorem parse_items (l : List (Item × Str)) (h : ∀ ib ∈ l, ib.1.Ok ∧ NameOk numeric ib.1.name) (d : List (Str × PV)) (last : Option Str) :
    ∃ last', parseTokens numeric shown ⟨d, none, last, false⟩ (l.flatMap (fun ib => tokens ib.1)) =
      some ⟨l.foldl (fun d ib => put d ib.1.name (valueOf ib.1)) d, none, last', false⟩ := by
  induction l generalizing d last with
  | nil => exact ⟨last, rfl⟩
  | cons x l ih =>
    obtain ⟨h1, h2⟩ := h x List.mem_cons_self
    obtain ⟨last', h3⟩ := ih (fun y hy => h y (List.mem_cons_of_mem _ hy)) (put d x.1.name (valueOf x.1)) (some x.1.name)
    refine ⟨last', ?_⟩
    rw [List.flatMap_cons, parseTokens_append, parse_item numeric shown x.1 h1 h2 d last]
    simp only [Option.bind_some, List.foldl_cons]
    exact h3

/-- The dictionary read from a list of items. -/
theorem parse_text (lead : Str) (l : List (Item × Str)) (hb : Blank lead) (h : Separated l) (hn : ∀ ib ∈ l, NameOk numeric ib.1.name) :
    parseParams numeric shown (lead ++ textOf l) = some (l.foldl (fun d ib => put d ib.1.name (valueOf ib.1)) []) := by
  unfold parseParams tokenize
  rw [List.foldl_append]
  have h0 : lead.foldl Tk.step Tk.init = ⟨none, false, [], []⟩ := by
    rw [fold_blank lead hb _ rfl rfl]
    split_ifs
    · rfl
    · rfl
  rw [h0, fold_items l h []]
  obtain ⟨last', h1⟩ := parse_items numeric shown l (fun ib hib => ⟨separated_ok l h ib hib, hn ib hib⟩) [] none
  show (parseTokens numeric shown ⟨[], none, none, false⟩ ([] ++ l.flatMap (fun ib => tokens ib.1))).map Ps.params = _
  rw [List.nil_append, h1]
  rfl

/-- What a value stands for: the texts it was read from. -/
def texts : PV → List Str
  | .one (.tok t) => [t]
  | .many l => l.filterMap (fun a => match a with | .tok t => some t | _ => none)
  | _ => []

theorem texts_valueOf (it : Item) : texts (valueOf it) = it.values := by
  unfold valueOf
  split_ifs with h
  · simp [texts, Item.values, h]
  · simp only [texts, List.filterMap_map]
    have : ((fun a : Atom => match a with | .tok t => some t | _ => none) ∘ Atom.tok) = some := rfl
    rw [this, List.filterMap_some]

theorem lookup_foldl_put (k : Str) (l : List (Item × Str)) (d : List (Str × PV)) :
    (l.foldl (fun d ib => put d ib.1.name (valueOf ib.1)) d).lookup k =
      match (l.map Prod.fst).reverse.find? (fun it => it.name = k) with
      | some it => some (valueOf it)
      | none => d.lookup k := by
  induction l generalizing d with
  | nil => rfl
  | cons x l ih =>
    rw [List.foldl_cons, ih, List.map_cons, List.reverse_cons, List.find?_append]
    cases (l.map Prod.fst).reverse.find? (fun it => decide (it.name = k)) with
    | some it => rfl
    | none =>
      simp only [Option.none_or, List.find?_cons, List.find?_nil]
      rw [lookup_put]
      by_cases h : x.1.name = k
      · simp [h]
      · have : ¬ k = x.1.name := fun e => h e.symm
        simp [h, this]

/-- C36: every list of parameters is read, whatever blanks surround the equal signs and follow the commas; quoted texts and
expressions in braces are kept whole; each name gets exactly the values given last for it. -/
theorem C36_read_all (lead : Str) (l : List (Item × Str)) (hb : Blank lead) (h : Separated l) (hn : ∀ ib ∈ l, NameOk numeric ib.1.name) :
    ∃ d, parseParams numeric shown (lead ++ textOf l) = some d ∧
      ∀ k, (d.lookup k).map texts = lastValues k (l.map Prod.fst) := by
  refine ⟨_, parse_text numeric shown lead l hb h hn, ?_⟩
  intro k
  rw [lookup_foldl_put]
  unfold lastValues
  cases (l.map Prod.fst).reverse.find? (fun it => decide (it.name = k)) with
  | none => rfl
  | some it => simp [texts_valueOf]

theorem put_new (d : List (Str × PV)) (k : Str) (v : PV) (h : k ∉ d.map Prod.fst) : put d k v = d ++ [(k, v)] := by
  induction d with
  | nil => rfl
  | cons x d ih =>
    obtain ⟨q, w⟩ := x
    simp only [List.map_cons, List.mem_cons, not_or] at h
    simp only [put, if_neg (Ne.symm h.1), ih h.2, List.cons_append]

theorem foldl_put_distinct (l : List (Item × Str)) (d : List (Str × PV)) (h : (d.map Prod.fst ++ l.map (fun ib => ib.1.name)).Nodup) :
    l.foldl (fun d ib => put d ib.1.name (valueOf ib.1)) d = d ++ l.map (fun ib => (ib.1.name, valueOf ib.1)) := by
  induction l generalizing d with
  | nil => simp
  | cons x l ih =>
    rw [List.foldl_cons]
    have hx : x.1.name ∉ d.map Prod.fst := by
      rw [List.map_cons, List.nodup_append] at h
      intro hm
      exact h.2.2 _ hm _ List.mem_cons_self rfl
    rw [put_new _ _ _ hx, ih]
    · simp
    · simpa [List.append_assoc] using h

/-- C36: with distinct names the result lists them all, in the order of the line. -/
theorem C36_read_order (lead : Str) (l : List (Item × Str)) (hb : Blank lead) (h : Separated l) (hn : ∀ ib ∈ l, NameOk numeric ib.1.name)
    (hd : (l.map (fun ib => ib.1.name)).Nodup) :
    ∃ d, parseParams numeric shown (lead ++ textOf l) = some d ∧ d.map (fun kv => (kv.1, texts kv.2)) = l.map (fun ib => (ib.1.name, ib.1.values)) := by
  refine ⟨_, parse_text numeric shown lead l hb h hn, ?_⟩
  rw [foldl_put_distinct l [] (by simpa using hd)]
  simp [texts_valueOf]

/-- A value that _parse_params can give for a well formed list: one word, or at least two. -/
def ValueOk (v : PV) : Prop := (∃ w, Word w ∧ v = .one (.tok w)) ∨ (∃ w1 w2 ws, v = .many ((w1 :: w2 :: ws).map .tok) ∧ ∀ w ∈ w1 :: w2 :: ws, Word w)

theorem joinWith_tail (w : Str) (ws : List Str) : joinWith ',' (w :: ws) = w ++ ws.flatMap (fun v => ',' :: v) := by
  induction ws generalizing w with
  | nil => simp [joinWith]
  | cons v ws ih => rw [joinWith, ih]; simp; exact List.cons_ne_nil _ _

theorem noBlank : Blank [] := by intro c hc; cases hc

theorem item_of (k : Str) (v : PV) (hk : Word k) (hv : ValueOk v) : ∃ it : Item, it.Ok ∧ it.name = k ∧ valueOf it = v ∧ it.text = k ++ '=' :: showPV v := by
  rcases hv with ⟨w, hw, rfl⟩ | ⟨w1, w2, ws, rfl, hw⟩
  · refine ⟨⟨k, [], [], w, []⟩, ⟨hk, noBlank, noBlank, hw, (by intro x hx; cases hx)⟩, rfl, rfl, ?_⟩
    simp [Item.text, showPV, showAtom]
  · refine ⟨⟨k, [], [], w1, (w2 :: ws).map (fun w => ([], w))⟩, ⟨hk, noBlank, noBlank, hw w1 List.mem_cons_self, ?_⟩, rfl, ?_, ?_⟩
    · intro x hx
      obtain ⟨w, hw', rfl⟩ := List.mem_map.1 hx
      exact ⟨by intro c hc; (cases hc), hw w (List.mem_cons_of_mem _ hw')⟩
    · simp [valueOf, Item.values, Function.comp_def]
    · have : ((w1 :: w2 :: ws).map Atom.tok).map showAtom = w1 :: w2 :: ws := by simp [Function.comp_def, showAtom]
      simp only [showPV, this, joinWith_tail]
      simp [Item.text, List.flatMap_map]

theorem joinWith_space (ts : List Str) : joinWith ' ' ts = match ts.reverse with
    | [] => []
    | t :: r => (r.reverse).flatMap (fun t => t ++ [' ']) ++ t := by
  induction ts with
  | nil => rfl
  | cons a ts ih =>
    cases ts with
    | nil => rfl
    | cons b ts =>
      rw [joinWith, ih]
      · rw [List.reverse_cons (a := a)]
        cases hr : (b :: ts).reverse with
        | nil => simp at hr
        | cons t r => simp
      · exact List.cons_ne_nil _ _

/-- Items with one blank between them. -/
def spaced : List Item → List (Item × Str)
  | [] => []
  | [it] => [(it, [])]
  | it :: x :: l => (it, [' ']) :: spaced (x :: l)

theorem spaced_fst (l : List Item) : (spaced l).map Prod.fst = l := by
  induction l with
  | nil => rfl
  | cons a l ih => cases l with
    | nil => rfl
    | cons b l => simp only [spaced, List.map_cons]; exact congrArg _ ih

theorem spaced_separated (l : List Item) (h : ∀ it ∈ l, it.Ok) : Separated (spaced l) := by
  induction l with
  | nil => trivial
  | cons a l ih =>
    cases l with
    | nil => exact ⟨h a List.mem_cons_self, by intro c hc; cases hc⟩
    | cons b l =>
      have ih := ih (fun it hit => h it (List.mem_cons_of_mem _ hit))
      have : ∃ y r, spaced (b :: l) = y :: r := by cases l <;> exact ⟨_, _, rfl⟩
      obtain ⟨y, r, hy⟩ := this
      simp only [spaced, hy] at ih ⊢
      refine ⟨h a List.mem_cons_self, ?_, by simp, ih⟩
      intro c hc; rw [List.mem_singleton] at hc; subst hc; decide

theorem spaced_text (l : List Item) : textOf (spaced l) = joinWith ' ' (l.map Item.text) := by
  induction l with
  | nil => rfl
  | cons a l ih =>
    cases l with
    | nil => simp [spaced, textOf, joinWith]
    | cons b l =>
      have : textOf (spaced (a :: b :: l)) = a.text ++ [' '] ++ textOf (spaced (b :: l)) := rfl
      rw [this, ih]
      simp [joinWith]

/-- C36: parameters written by the editor are read back as the same dictionary, in the same order. (Words are written as they
were read; how numbers are printed is not part of this.) -/
theorem C36_write_read (d : List (Str × PV)) (hd : (d.map Prod.fst).Nodup)
    (hk : ∀ kv ∈ d, Word kv.1 ∧ NameOk numeric kv.1 ∧ ValueOk kv.2) : parseParams numeric shown (showParams d) = some d := by
  have hex : ∃ items : List Item, (∀ it ∈ items, it.Ok) ∧ items.map (fun it => (it.name, valueOf it)) = d ∧
      items.map Item.text = d.map (fun kv => kv.1 ++ '=' :: showPV kv.2) := by
    clear hd
    induction d with
    | nil => exact ⟨[], by simp, rfl, rfl⟩
    | cons kv d ih =>
      obtain ⟨items, h1, h2, h3⟩ := ih (fun x hx => hk x (List.mem_cons_of_mem _ hx))
      obtain ⟨hw, _, hv⟩ := hk kv List.mem_cons_self
      obtain ⟨it, g1, g2, g3, g4⟩ := item_of kv.1 kv.2 hw hv
      refine ⟨it :: items, ?_, ?_, ?_⟩
      · intro x hx
        rcases List.mem_cons.1 hx with rfl | hx
        · exact g1
        · exact h1 x hx
      · rw [List.map_cons, h2, g2, g3]
      · rw [List.map_cons, List.map_cons, h3, g4]
  obtain ⟨items, h1, h2, h3⟩ := hex
  have htext : showParams d = [] ++ textOf (spaced items) := by rw [spaced_text, h3]; rfl
  have hnames : ∀ ib ∈ spaced items, ib.1 ∈ items := by
    intro ib hib
    have : ib.1 ∈ (spaced items).map Prod.fst := List.mem_map_of_mem hib
    rwa [spaced_fst] at this
  rw [htext, parse_text numeric shown [] _ (by intro c hc; cases hc) (spaced_separated items h1)]
  · have hmap : (spaced items).map (fun ib => (ib.1.name, valueOf ib.1)) = d := by
      have : (spaced items).map (fun ib => (ib.1.name, valueOf ib.1)) = ((spaced items).map Prod.fst).map (fun it => (it.name, valueOf it)) := by simp
      rw [this, spaced_fst, h2]
    rw [foldl_put_distinct]
    · simp [hmap]
    · have : (spaced items).map (fun ib => ib.1.name) = d.map Prod.fst := by rw [← hmap]; simp
      simpa [this] using hd
  · intro ib hib
    have : (ib.1.name, valueOf ib.1) ∈ d := by rw [← h2]; exact List.mem_map_of_mem (hnames ib hib)
    exact (hk _ this).2.1

/-! ### Concrete cases and limits -/

def noNum : Str → Bool := fun t => t.all Char.isDigit
def str : PV → Str := fun _ => "?".toList

def ex1 : List (Item × Str) :=
  [(⟨"tc".toList, [], [], "1".toList, [(" ".toList, "2".toList)]⟩, " ".toList), (⟨"pwr".toList, " ".toList, " ".toList, "{a + b}".toList, []⟩, [])]

example : textOf ex1 = "tc=1, 2 pwr = {a + b}".toList := by decide

theorem plainWord (s : Str) (hne : s ≠ []) (h : ∀ c ∈ s, isSpace c = false ∧ c ∉ [',', '=', '{', '}', '"', '\'']) : Word s := by
  refine ⟨s.map (fun c => [c]), by simpa using hne, ?_, ?_⟩
  · intro p hp; obtain ⟨c, hc, rfl⟩ := List.mem_map.1 hp; exact Piece.plain c (h c hc).1 (h c hc).2
  · clear hne h
    induction s with
    | nil => rfl
    | cons c s ih => simp only [List.map_cons, List.flatten_cons]; rw [← ih]; rfl

theorem ex1_ok : Separated ex1 ∧ ∀ ib ∈ ex1, NameOk noNum ib.1.name := by
  refine ⟨⟨⟨?_, ?_, ?_, ?_, ?_⟩, ?_, by decide, ⟨?_, ?_, ?_, ?_, ?_⟩, ?_⟩, ?_⟩
  · exact plainWord _ (by decide) (by decide)
  · intro c hc; cases hc
  · intro c hc; cases hc
  · exact plainWord _ (by decide) (by decide)
  · intro x hx; rw [List.mem_singleton] at hx; subst hx; exact ⟨by unfold Blank; decide, plainWord _ (by decide) (by decide)⟩
  · unfold Blank; decide
  · exact plainWord _ (by decide) (by decide)
  · unfold Blank; decide
  · unfold Blank; decide
  · exact ⟨["{a + b}".toList], by simp, by intro p hp; rw [List.mem_singleton] at hp; subst hp; exact Piece.braces "a + b".toList (by decide), by decide⟩
  · intro x hx; cases hx
  · intro c hc; cases hc
  · intro ib hib; simp only [ex1, List.mem_cons, List.not_mem_nil, or_false] at hib
    rcases hib with rfl | rfl <;> exact ⟨by decide, by decide, by decide⟩

example : parseParams noNum str "tc=1, 2 pwr = {a + b}".toList =
    some [("tc".toList, .many [.tok "1".toList, .tok "2".toList]), ("pwr".toList, .one (.tok "{a + b}".toList))] := by decide

/-- Limit: a blank before a comma makes the rest of the list disappear. -/
theorem C36_blank_before_comma :
    parseParams noNum str "k=x , y".toList = some [("k".toList, .one (.tok "x".toList))] := by decide

/-- Limit: braces within braces are not kept whole. -/
theorem C36_nested_braces :
    parseParams noNum str "k={a+{b} c} m=3".toList ≠ some [("k".toList, .one (.tok "{a+{b} c}".toList)), ("m".toList, .one (.tok "3".toList))] := by decide

/-- Limit: parentheses do not keep a value together. -/
theorem C36_parentheses_split :
    parseParams noNum str "k=(a b) m=3".toList ≠ some [("k".toList, .one (.tok "(a b)".toList)), ("m".toList, .one (.tok "3".toList))] := by decide

/-- Limit: a name without a value at the end is dropped. -/
theorem C36_trailing_name_lost : parseParams noNum str "a=1 off".toList = some [("a".toList, .one (.tok "1".toList))] := by decide

/-- Limit: when a line with the flag `noiseless` is written after a change of another parameter, the flag is written as
`noiseless=True`, which cannot be read again (ValueError). -/
theorem C36_flag_unreadable : ∃ d, parseParams noNum str "noiseless tc=1".toList = some d ∧
    showParams d = "noiseless=True tc=1".toList ∧ parseParams noNum str (showParams d) = none :=
  ⟨[("noiseless".toList, .one .flag), ("tc".toList, .one (.tok "1".toList))], by decide, by decide, by decide⟩

/-- Limit: the type of a parameter is lost when the parameters are written again. -/
theorem C36_type_lost : ∃ d, parseParams noNum str "int n=5".toList = some d ∧ showParams d = "n=5".toList :=
  ⟨[("n".toList, .one (.tok "5".toList))], by decide, by decide⟩

end Props.Params
