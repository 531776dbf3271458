import Verif.Model.Qsch
import Verif.Spec.QschTree
import Verif.Lemmas.PyStr
import Mathlib.Tactic.SplitIfs
/-
Lemmas about reading and writing QSpice tag trees.
-/
namespace Lemmas.Qsch
open Model.Qsch Model.PyStr Lemmas.PyStr
open Spec.QschTree hiding Str

theorem contains_iff (pat s : Str) (hp : pat ≠ []) : contains pat s = true ↔ pat <:+: s := by
  induction s with
  | nil => simp [contains, hp]
  | cons c cs ih =>
    rw [contains, Bool.or_eq_true, List.isPrefixOf_iff_prefix, ih, List.infix_cons_iff]

theorem contains_colon (s : Str) : contains [':', ' '] s = true ↔ HasColon s := contains_iff _ _ (by simp)

theorem join_eq : ∀ ts : List Str, join ts = List.intercalate [' '] ts
  | [] => rfl
  | [w] => by simp [join, List.intercalate]
  | w :: x :: ws => by
    rw [join, join_eq (x :: ws)]
    simp [List.intercalate]

/-! ### Quotes -/

theorem skipQuote_lit (b r : Str) (h : ∀ c ∈ b, c ≠ '"') : skipQuote (b ++ '"' :: r) = some (b, r) := by
  induction b with
  | nil => simp [skipQuote]
  | cons c b ih =>
    rw [List.cons_append, skipQuote, if_neg (h c List.mem_cons_self), ih (fun d hd => h d (List.mem_cons_of_mem _ hd))]
    rfl

theorem skipQuote_some (s b r : Str) (h : skipQuote s = some (b, r)) : s = b ++ '"' :: r ∧ ∀ c ∈ b, c ≠ '"' := by
  induction s generalizing b with
  | nil => simp [skipQuote] at h
  | cons c s ih =>
    rw [skipQuote] at h
    split_ifs at h with hc
    · obtain ⟨rfl, rfl⟩ := by simpa using h
      subst hc
      simp
    · cases hq : skipQuote s with
      | none => rw [hq] at h; simp at h
      | some p =>
        rw [hq] at h
        obtain ⟨p1, p2⟩ := p
        simp only [Option.map_some, Option.some.injEq, Prod.mk.injEq] at h
        obtain ⟨rfl, rfl⟩ := h
        obtain ⟨h1, h2⟩ := ih p1 hq
        refine ⟨by rw [h1]; rfl, ?_⟩
        intro d hd
        rcases List.mem_cons.1 hd with rfl | hd
        · exact hc
        · exact h2 d hd

/-! ### OneLine -/

theorem oneLine_append {a b : Str} (ha : OneLine a) (hb : OneLine b) : OneLine (a ++ b) := by
  induction ha with
  | nil => exact hb
  | char c s hc _ ih => exact OneLine.char c _ hc ih
  | quoted q s hq _ ih =>
    have : ('"' :: q ++ '"' :: s) ++ b = '"' :: q ++ '"' :: (s ++ b) := by simp
    rw [this]
    exact OneLine.quoted q _ hq ih

theorem oneLine_plain (s : Str) (h : ∀ c ∈ s, c ≠ '"' ∧ c ≠ '«' ∧ c ≠ '»' ∧ c ≠ '\n') : OneLine s := by
  induction s with
  | nil => exact .nil
  | cons c s ih => exact .char c s (h c List.mem_cons_self) (ih (fun d hd => h d (List.mem_cons_of_mem _ hd)))

theorem newline_space : isSpace '\n' = true := by decide

theorem oneLine_token {w : Str} (h : Token w) : OneLine w := by
  cases h with
  | word _ hne hw =>
    refine oneLine_plain w (fun c hc => ?_)
    obtain ⟨h1, h2, h3, h4⟩ := hw c hc
    refine ⟨h2, h3, h4, ?_⟩
    rintro rfl
    rw [newline_space] at h1
    cases h1
  | quoted b hb => exact OneLine.quoted b [] hb .nil

theorem oneLine_blanks (n : Nat) : OneLine (List.replicate n ' ') :=
  oneLine_plain _ (fun c hc => by rw [List.eq_of_mem_replicate hc]; decide)

theorem oneLine_join (ts : List Str) (h : ∀ w ∈ ts, Token w) : OneLine (Model.Qsch.join ts) := by
  induction ts with
  | nil => exact .nil
  | cons w ws ih =>
    cases ws with
    | nil => exact oneLine_token (h w List.mem_cons_self)
    | cons x ws =>
      exact oneLine_append (oneLine_token (h w List.mem_cons_self))
        (.char ' ' _ (by decide) (ih (fun v hv => h v (List.mem_cons_of_mem _ hv))))

theorem oneLine_tail {c : Char} {s : Str} (h : OneLine (c :: s)) (hc : c ≠ '"') :
    OneLine s ∧ c ≠ '«' ∧ c ≠ '»' ∧ c ≠ '\n' := by
  cases h with
  | char _ _ h1 h2 => exact ⟨h2, h1.2⟩
  | quoted b s hb hs => exact absurd rfl hc

theorem oneLine_unquote {s : Str} (h : OneLine ('"' :: s)) :
    ∃ b r : Str, s = b ++ '"' :: r ∧ (∀ c ∈ b, c ≠ '"') ∧ OneLine r := by
  generalize hx : '"' :: s = x at h
  cases h with
  | nil => cases hx
  | char c s' hc hs => exact absurd (List.cons.inj hx).1.symm hc.1
  | quoted b r hb hr => exact ⟨b, r, (List.cons.inj hx).2, hb, hr⟩

/-! ### smart_split -/

def run (d : Char) : Bool := d ≠ '"' && !isSpace d

theorem smartSplitN_cons (n : Nat) (c : Char) (r : Str) : smartSplitN (n + 1) (c :: r) =
    if c = '"' then
      match skipQuote r with
      | some (q, r') => ('"' :: q ++ ['"']) :: smartSplitN n r'
      | none => smartSplitN n r
    else if isSpace c then smartSplitN n r
    else (c :: r.takeWhile run) :: smartSplitN n (r.dropWhile run) := rfl

theorem dropWhile_suffix_lt (r : Str) : (r.dropWhile run).length ≤ r.length := (List.dropWhile_suffix _).length_le

theorem smartSplitN_ext (n : Nat) : ∀ (m : Nat) (s : Str), s.length ≤ n → s.length ≤ m → smartSplitN n s = smartSplitN m s := by
  induction n with
  | zero =>
    intro m s h1 _
    have : s = [] := List.eq_nil_of_length_eq_zero (by omega)
    subst this
    cases m <;> rfl
  | succ n ih =>
    intro m s h1 h2
    cases s with
    | nil => cases m <;> rfl
    | cons c r =>
      cases m with
      | zero => simp at h2
      | succ m =>
        simp only [List.length_cons, Nat.add_le_add_iff_right] at h1 h2
        rw [smartSplitN_cons, smartSplitN_cons]
        split_ifs with h3 h4
        · cases hq : skipQuote r with
          | none => exact ih m r h1 h2
          | some p =>
            obtain ⟨q, r'⟩ := p
            have := congrArg List.length (skipQuote_some r q r' hq).1
            simp only [List.length_append, List.length_cons] at this
            show _ :: _ = _ :: _
            rw [ih m r' (by omega) (by omega)]
        · exact ih m r h1 h2
        · have := dropWhile_suffix_lt r
          rw [ih m _ (by omega) (by omega)]

theorem smartSplit_quoted (b r : Str) (h : ∀ c ∈ b, c ≠ '"') : smartSplit ('"' :: b ++ '"' :: r) = ('"' :: b ++ ['"']) :: smartSplit r := by
  unfold smartSplit
  rw [List.cons_append, List.length_cons, smartSplitN_cons, if_pos rfl, skipQuote_lit b r h]
  show _ :: _ = _ :: _
  rw [smartSplitN_ext _ r.length r (by simp; omega) (Nat.le_refl _)]

theorem smartSplit_space (c : Char) (r : Str) (h : isSpace c = true) : smartSplit (c :: r) = smartSplit r := by
  unfold smartSplit
  rw [List.length_cons, smartSplitN_cons, if_neg, if_pos h]
  rintro rfl
  revert h; decide

theorem takeWhile_lit (w r : Str) (hw : ∀ c ∈ w, run c = true) (hr : ∀ c, r.head? = some c → run c = false) :
    (w ++ r).takeWhile run = w ∧ (w ++ r).dropWhile run = r := by
  induction w with
  | nil =>
    cases r with
    | nil => simp
    | cons c r => simp [hr c rfl]
  | cons c w ih =>
    have := ih (fun d hd => hw d (List.mem_cons_of_mem _ hd))
    simp [hw c List.mem_cons_self, this]

theorem smartSplit_word (w r : Str) (hne : w ≠ []) (hw : ∀ c ∈ w, run c = true) (hr : ∀ c, r.head? = some c → run c = false) :
    smartSplit (w ++ r) = w :: smartSplit r := by
  cases w with
  | nil => exact absurd rfl hne
  | cons c w =>
    have hc := hw c List.mem_cons_self
    obtain ⟨h1, h2⟩ := takeWhile_lit w r (fun d hd => hw d (List.mem_cons_of_mem _ hd)) hr
    unfold smartSplit
    rw [List.cons_append, List.length_cons, smartSplitN_cons]
    simp only [run, Bool.and_eq_true, decide_eq_true_eq, Bool.not_eq_true'] at hc
    rw [if_neg hc.1, if_neg (by simp [hc.2]), h1, h2]
    rw [smartSplitN_ext _ r.length r (by simp) (Nat.le_refl _)]

theorem smartSplit_nil : smartSplit [] = [] := rfl

theorem smartSplit_tokens (ts : List Str) (h : ∀ w ∈ ts, Token w) : smartSplit (join ts) = ts := by
  have one : ∀ (w r : Str), Token w → (r = [] ∨ ∃ r', r = ' ' :: r') → smartSplit (w ++ r) = w :: smartSplit r := by
    intro w r hw hr
    cases hw with
    | word _ hne hc =>
      refine smartSplit_word w r hne (fun c hcm => ?_) ?_
      · obtain ⟨h1, h2, _⟩ := hc c hcm
        simp [run, h1, h2]
      · intro c hcr
        rcases hr with rfl | ⟨r', rfl⟩
        · cases hcr
        · obtain rfl : ' ' = c := by simpa using hcr
          decide
    | quoted b hb =>
      have : '"' :: b ++ ['"'] ++ r = '"' :: b ++ '"' :: r := by simp
      rw [this, smartSplit_quoted b r hb]
  induction ts with
  | nil => rfl
  | cons w ws ih =>
    cases ws with
    | nil =>
      have := one w [] (h w List.mem_cons_self) (Or.inl rfl)
      rw [List.append_nil] at this
      exact this
    | cons x ws =>
      rw [join, one w _ (h w List.mem_cons_self) (Or.inr ⟨_, rfl⟩), smartSplit_space ' ' _ (by decide),
        ih (fun v hv => h v (List.mem_cons_of_mem _ hv))]

theorem smartSplit_blanks (n : Nat) : smartSplit (List.replicate n ' ') = [] := by
  induction n with
  | zero => rfl
  | succ n ih => rw [List.replicate_succ, smartSplit_space _ _ (by decide), ih]

theorem oneLine_dropRun {s : Str} (h : OneLine s) : OneLine (s.dropWhile run) ∧
    ∀ c ∈ s.takeWhile run, isSpace c = false ∧ c ≠ '"' ∧ c ≠ '«' ∧ c ≠ '»' := by
  induction s with
  | nil => simp [h]
  | cons c s ih =>
    by_cases hr : run c = true
    · have hc : c ≠ '"' ∧ isSpace c = false := by simpa [run] using hr
      obtain ⟨h1, h2, h3, _⟩ := oneLine_tail h hc.1
      obtain ⟨i1, i2⟩ := ih h1
      rw [List.dropWhile_cons_of_pos hr, List.takeWhile_cons_of_pos hr]
      refine ⟨i1, ?_⟩
      intro d hd
      rcases List.mem_cons.1 hd with rfl | hd
      · exact ⟨hc.2, hc.1, h2, h3⟩
      · exact i2 d hd
    · rw [List.dropWhile_cons_of_neg hr, List.takeWhile_cons_of_neg hr]
      exact ⟨h, by simp⟩

theorem smartSplitN_token (n : Nat) : ∀ s : Str, OneLine s → ∀ w ∈ smartSplitN n s, Token w := by
  induction n with
  | zero => intro s _ w hw; cases hw
  | succ n ih =>
    intro s hs w hw
    cases s with
    | nil => cases hw
    | cons c r =>
      rw [smartSplitN_cons] at hw
      split_ifs at hw with h1 h2
      · subst h1
        obtain ⟨b, r', rfl, hb, hr⟩ := oneLine_unquote hs
        rw [skipQuote_lit b r' hb] at hw
        rcases List.mem_cons.1 hw with rfl | hw
        · exact .quoted b hb
        · exact ih r' hr w hw
      · exact ih r (oneLine_tail hs h1).1 w hw
      · obtain ⟨t1, t2, t3, _⟩ := oneLine_tail hs h1
        obtain ⟨d1, d2⟩ := oneLine_dropRun t1
        rcases List.mem_cons.1 hw with rfl | hw
        · refine .word _ (by simp) ?_
          intro d hd
          rcases List.mem_cons.1 hd with rfl | hd
          · exact ⟨by simpa using h2, h1, t2, t3⟩
          · exact d2 d hd
        · exact ih _ d1 w hw

theorem smartSplit_token (s : Str) (h : OneLine s) : ∀ w ∈ smartSplit s, Token w := smartSplitN_token _ s h

/-! ### split(': ') -/

theorem splitColon_cons (c : Char) (r : Str) (h : ¬ (c = ':' ∧ r.head? = some ' ')) : splitColon (c :: r) =
    match splitColon r with
    | [] => [[c]]
    | w :: ws => (c :: w) :: ws := by
  rw [splitColon]
  · rfl
  · rintro r' rfl rfl
    exact h ⟨rfl, rfl⟩

theorem splitColon_none (s : Str) (h : ¬ HasColon s) : splitColon s = [s] := by
  induction s with
  | nil => rfl
  | cons c r ih =>
    rw [splitColon_cons, ih]
    · intro hh
      exact h (hh.trans (List.suffix_cons _ _).isInfix)
    · rintro ⟨rfl, h2⟩
      cases r with
      | nil => cases h2
      | cons d r =>
        obtain rfl : d = ' ' := by simpa using h2
        exact h ⟨[], r, rfl⟩

theorem splitColon_lit (n t : Str) (hn : ¬ HasColon n) (ht : ¬ HasColon t) : splitColon (n ++ [':', ' '] ++ t) = [n, t] := by
  induction n with
  | nil => simp only [List.nil_append, List.cons_append]; rw [splitColon, splitColon_none t ht]
  | cons c n ih =>
    rw [List.cons_append, List.cons_append, splitColon_cons, ih]
    · intro hh
      exact hn (hh.trans (List.suffix_cons _ _).isInfix)
    · rintro ⟨rfl, h2⟩
      cases n with
      | nil => simp at h2
      | cons d n =>
        obtain rfl : d = ' ' := by simpa using h2
        exact hn ⟨[], n, rfl⟩

theorem splitColon_lit2 (n t : Str) (l : List Str) (hn : ¬ HasColon n) (ht : splitColon t = l) :
    splitColon (n ++ [':', ' '] ++ t) = n :: l := by
  induction n with
  | nil => simp only [List.nil_append, List.cons_append]; rw [splitColon, ht]
  | cons c n ih =>
    rw [List.cons_append, List.cons_append, splitColon_cons, ih]
    · intro hh
      exact hn (hh.trans (List.suffix_cons _ _).isInfix)
    · rintro ⟨rfl, h2⟩
      cases n with
      | nil => simp at h2
      | cons d n =>
        obtain rfl : d = ' ' := by simpa using h2
        exact hn ⟨[], n, rfl⟩

theorem splitColon_ne (s : Str) : splitColon s ≠ [] := by
  induction s using splitColon.induct with
  | case1 r ih => rw [splitColon]; simp
  | case2 => simp [splitColon]
  | case3 c r h ih hr =>
    rw [splitColon]
    · cases hq : splitColon r <;> simp
    · assumption
  | case4 => 
    rw [splitColon]
    · cases hq : splitColon _ <;> simp
    · assumption

theorem splitColon_join (s : Str) : List.intercalate [':', ' '] (splitColon s) = s := by
  have h2 : ∀ (w : Str) (ws : List Str), ws ≠ [] →
      List.intercalate [':', ' '] (w :: ws) = w ++ [':', ' '] ++ List.intercalate [':', ' '] ws := by
    intro w ws h
    cases ws with
    | nil => exact absurd rfl h
    | cons x ws => simp [List.intercalate]
  induction s using splitColon.induct with
  | case1 r ih => rw [splitColon, h2 _ _ (splitColon_ne r), ih]; rfl
  | case2 => simp [splitColon, List.intercalate]
  | case3 c r h hr ih =>
    exact absurd hr (splitColon_ne _)
  | case4 c r h w ws hr ih =>
    rw [splitColon]
    · rw [hr]
      rw [hr] at ih
      rw [← ih]
      show List.intercalate [':', ' '] ((c :: w) :: ws) = _
      cases ws <;> simp [List.intercalate]
    · assumption

end Lemmas.Qsch
