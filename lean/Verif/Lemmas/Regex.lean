import Verif.Model.Regex
import Mathlib.Tactic.SplitIfs

/-! The backtracking matcher finds a match exactly when there is one, and what it finds is one; and which one it finds first for
the simplest expressions. -/
namespace Lemmas.Regex
open Model.Regex

/-- `Run r s t`: r can match the text between s and t (what can be matched, in any order of preference). -/
inductive Run : Re → St → St → Prop
  | nil {s : St} : Run .nil s s
  | cls {p : Char → Bool} {s : St} {c : Char} {r : Str} : s.rest = c :: r → p c = true → Run (.cls p) s (s.next r)
  | seq {a b : Re} {s t u : St} : Run a s t → Run b t u → Run (.seq a b) s u
  | left {a b : Re} {s t : St} : Run a s t → Run (.alt a b) s t
  | right {a b : Re} {s t : St} : Run b s t → Run (.alt a b) s t
  | stop {a : Re} {s : St} : Run (.star a) s s
  | once {a : Re} {s t u : St} : Run a s t → t.rest.length < s.rest.length → Run (.star a) t u → Run (.star a) s u
  | lstop {a : Re} {s : St} : Run (.lazy a) s s
  | lonce {a : Re} {s t u : St} : Run a s t → t.rest.length < s.rest.length → Run (.lazy a) t u → Run (.lazy a) s u
  | grp {g : G} {a : Re} {s t : St} : Run a s t → Run (.grp g a) s (St.close g s t)
  | yes {g : G} {a b : Re} {s t : St} : s.has g = true → Run a s t → Run (.cond g a b) s t
  | no {g : G} {a b : Re} {s t : St} : s.has g = false → Run b s t → Run (.cond g a b) s t
  | eol {s : St} : s.rest = [] ∨ s.rest = ['\n'] → Run .eol s s

theorem go_sound (r : Re) : ∀ (k : St → Option St) (s x : St), go r k s = some x → ∃ t, Run r s t ∧ k t = some x := by
  induction r with
  | nil => intro k s x h; exact ⟨s, .nil, h⟩
  | cls p =>
    intro k s x h
    unfold go at h
    cases hr : s.rest with
    | nil => rw [hr] at h; simp at h
    | cons c r =>
      rw [hr] at h
      by_cases hp : p c = true
      · simp only [hp, if_true] at h
        exact ⟨_, .cls hr hp, h⟩
      · simp [hp] at h
  | seq a b iha ihb =>
    intro k s x h
    obtain ⟨t, h1, h2⟩ := iha _ _ _ h
    obtain ⟨u, h3, h4⟩ := ihb _ _ _ h2
    exact ⟨u, .seq h1 h3, h4⟩
  | alt a b iha ihb =>
    intro k s x h
    simp only [go, Option.or_eq_some_iff] at h
    rcases h with h | ⟨_, h⟩
    · obtain ⟨t, h1, h2⟩ := iha _ _ _ h; exact ⟨t, .left h1, h2⟩
    · obtain ⟨t, h1, h2⟩ := ihb _ _ _ h; exact ⟨t, .right h1, h2⟩
  | star a ih =>
    intro k s x h
    simp only [go] at h
    generalize s.rest.length = n at h
    induction n generalizing s with
    | zero => exact ⟨s, .stop, h⟩
    | succ n ihn =>
      simp only [more, Option.or_eq_some_iff] at h
      rcases h with h | ⟨_, h⟩
      · obtain ⟨t, h1, h2⟩ := ih _ _ _ h
        by_cases hl : t.rest.length < s.rest.length
        · rw [if_pos hl] at h2
          obtain ⟨u, h3, h4⟩ := ihn t h2
          exact ⟨u, .once h1 hl h3, h4⟩
        · rw [if_neg hl] at h2; simp at h2
      · exact ⟨s, .stop, h⟩
  | lazy a ih =>
    intro k s x h
    simp only [go] at h
    generalize s.rest.length = n at h
    induction n generalizing s with
    | zero => exact ⟨s, .lstop, h⟩
    | succ n ihn =>
      simp only [less, Option.or_eq_some_iff] at h
      rcases h with h | ⟨_, h⟩
      · exact ⟨s, .lstop, h⟩
      · obtain ⟨t, h1, h2⟩ := ih _ _ _ h
        by_cases hl : t.rest.length < s.rest.length
        · rw [if_pos hl] at h2
          obtain ⟨u, h3, h4⟩ := ihn t h2
          exact ⟨u, .lonce h1 hl h3, h4⟩
        · rw [if_neg hl] at h2; simp at h2
  | grp g a ih =>
    intro k s x h
    obtain ⟨t, h1, h2⟩ := ih _ _ _ h
    exact ⟨_, .grp h1, h2⟩
  | cond g a b iha ihb =>
    intro k s x h
    simp only [go] at h
    by_cases hg : s.has g = true
    · rw [if_pos hg] at h
      obtain ⟨t, h1, h2⟩ := iha _ _ _ h; exact ⟨t, .yes hg h1, h2⟩
    · rw [if_neg hg] at h
      obtain ⟨t, h1, h2⟩ := ihb _ _ _ h; exact ⟨t, .no (by simpa using hg) h1, h2⟩
  | eol =>
    intro k s x h
    simp only [go] at h
    by_cases he : s.rest = [] ∨ s.rest = ['\n']
    · rw [if_pos he] at h; exact ⟨s, .eol he, h⟩
    · rw [if_neg he] at h; simp at h

theorem go_complete (r : Re) : ∀ (s t : St), Run r s t → ∀ (k : St → Option St), (k t).isSome = true → (go r k s).isSome = true := by
  induction r with
  | nil => intro s t h k hk; cases h; exact hk
  | cls p => intro s t h k hk; cases h with | cls hr hp => simp only [go, hr, hp, if_true]; exact hk
  | seq a b iha ihb => intro s t h k hk; cases h with | seq h1 h2 => exact iha _ _ h1 _ (ihb _ _ h2 _ hk)
  | alt a b iha ihb =>
    intro s t h k hk
    cases h with
    | left h => simp only [go, Option.isSome_or, iha _ _ h _ hk, Bool.true_or]
    | right h => simp only [go, Option.isSome_or, ihb _ _ h _ hk, Bool.or_true]
  | star a ih =>
    have key : ∀ (n : Nat) (s t : St), s.rest.length ≤ n → Run (.star a) s t → ∀ (k : St → Option St), (k t).isSome = true →
        (more (go a) k n s).isSome = true := by
      intro n
      induction n with
      | zero =>
        intro s t hn h k hk
        cases h with
        | stop => exact hk
        | once _ hl _ => omega
      | succ n ihn =>
        intro s t hn h k hk
        simp only [more, Option.isSome_or, Bool.or_eq_true]
        cases h with
        | stop => exact Or.inr hk
        | @once _ _ u _ h1 hl h2 =>
          left
          refine ih _ _ h1 _ ?_
          rw [if_pos hl]
          exact ihn u t (by omega) h2 k hk
    intro s t h k hk
    exact key _ s t (Nat.le_refl _) h k hk
  | lazy a ih =>
    have key : ∀ (n : Nat) (s t : St), s.rest.length ≤ n → Run (.lazy a) s t → ∀ (k : St → Option St), (k t).isSome = true →
        (less (go a) k n s).isSome = true := by
      intro n
      induction n with
      | zero =>
        intro s t hn h k hk
        cases h with
        | lstop => exact hk
        | lonce _ hl _ => omega
      | succ n ihn =>
        intro s t hn h k hk
        simp only [less, Option.isSome_or, Bool.or_eq_true]
        cases h with
        | lstop => exact Or.inl hk
        | @lonce _ _ u _ h1 hl h2 =>
          right
          refine ih _ _ h1 _ ?_
          rw [if_pos hl]
          exact ihn u t (by omega) h2 k hk
    intro s t h k hk
    exact key _ s t (Nat.le_refl _) h k hk
  | grp g a ih => intro s t h k hk; cases h with | grp h => exact ih _ _ h _ hk
  | cond g a b iha ihb =>
    intro s t h k hk
    cases h with
    | yes hg h => simp only [go, hg, if_true]; exact iha _ _ h _ hk
    | no hg h => simp only [go, hg, Bool.false_eq_true, if_false]; exact ihb _ _ h _ hk
  | eol => intro s t h k hk; cases h with | eol he => simp only [go, if_pos he]; exact hk

/-- There is a match iff the matcher finds one. -/
theorem exec_iff (r : Re) (text : Str) : (exec r text).isSome = true ↔ ∃ t, Run r ⟨0, text, []⟩ t := by
  constructor
  · intro h
    obtain ⟨x, hx⟩ := Option.isSome_iff_exists.1 h
    obtain ⟨t, h1, _⟩ := go_sound r _ _ _ hx
    exact ⟨t, h1⟩
  · rintro ⟨t, h⟩
    exact go_complete r _ _ h _ rfl

/-- The matcher cannot succeed when nothing can follow. -/
theorem go_none (r : Re) (k : St → Option St) (s : St) (h : ∀ t, Run r s t → k t = none) : go r k s = none := by
  cases hg : go r k s with
  | none => rfl
  | some x =>
    obtain ⟨t, h1, h2⟩ := go_sound r _ _ _ hg
    rw [h t h1] at h2; simp at h2

/-! ### Characters -/

/-- Past some characters. -/
def adv (s : St) (a : Str) (r : Str) : St := { s with pos := s.pos + a.length, rest := r }

theorem adv_adv (s : St) (a b r r' : Str) : adv (adv s a r) b r' = adv s (a ++ b) r' := by
  simp [adv, Nat.add_assoc]

theorem adv_nil (s : St) : adv s [] s.rest = s := by simp [adv]

theorem next_adv (s : St) (c : Char) (r : Str) : s.next r = adv s [c] r := rfl

/-- A greedy run of characters of a class: the longest is tried first. -/
theorem star_cls (p : Char → Bool) (k : St → Option St) (a r : Str) (ha : ∀ c ∈ a, p c = true) :
    ∀ (n : Nat) (s : St), s.rest = a ++ r → a.length ≤ n → ∀ x, more (go (.cls p)) k (n - a.length) (adv s a r) = some x →
      more (go (.cls p)) k n s = some x := by
  induction a with
  | nil =>
    intro n s hs _ x h
    have : adv s [] r = s := by rw [show r = s.rest by simpa using hs.symm]; exact adv_nil s
    rw [this] at h
    simpa using h
  | cons c a ih =>
    intro n s hs hn x h
    cases n with
    | zero => simp at hn
    | succ n =>
      have hr : s.rest = c :: (a ++ r) := hs
      have hc := ha c (by simp)
      have h1 := ih (fun d hd => ha d (by simp [hd])) n (s.next (a ++ r)) rfl (by simpa using hn) x (by
        rw [next_adv s c, adv_adv]
        simpa using h)
      simp only [more, go, hr, hc, if_true, Option.or_eq_some_iff]
      left
      rw [if_pos (by simp [St.next])]
      exact h1

theorem more_stop (p : Char → Bool) (k : St → Option St) (n : Nat) (s : St) (h : ∀ c, s.rest.head? = some c → p c = false) :
    more (go (.cls p)) k n s = k s := by
  cases n with
  | zero => rfl
  | succ n =>
    simp only [more]
    have : go (.cls p) (fun t => if t.rest.length < s.rest.length then more (go (.cls p)) k n t else none) s = none := by
      unfold go
      cases hr : s.rest with
      | nil => rfl
      | cons c r => simp [h c (by rw [hr]; rfl)]
    rw [this]; rfl

/-- `p*` at a maximal run. -/
theorem go_star (p : Char → Bool) (k : St → Option St) (s : St) (a r : Str) (hs : s.rest = a ++ r) (ha : ∀ c ∈ a, p c = true)
    (hr : ∀ c, r.head? = some c → p c = false) (x : St) (h : k (adv s a r) = some x) : go (.star (.cls p)) k s = some x := by
  unfold go
  refine star_cls p k a r ha _ s hs (by rw [hs]; simp) x ?_
  rw [more_stop]
  · exact h
  · exact hr

/-- `p+` at a maximal run. -/
theorem go_plus (p : Char → Bool) (k : St → Option St) (s : St) (a r : Str) (hne : a ≠ []) (hs : s.rest = a ++ r) (ha : ∀ c ∈ a, p c = true)
    (hr : ∀ c, r.head? = some c → p c = false) (x : St) (h : k (adv s a r) = some x) : go (plus (.cls p)) k s = some x := by
  obtain ⟨c, a', rfl⟩ := List.exists_cons_of_ne_nil hne
  have hs' : s.rest = c :: (a' ++ r) := hs
  unfold plus
  simp only [go, hs', ha c (by simp), if_true]
  refine go_star p k (s.next (a' ++ r)) a' r rfl (fun d hd => ha d (by simp [hd])) hr x ?_
  rw [next_adv s c, adv_adv]
  simpa using h

/-- Between two points of the text. -/
structure Between (s t : St) (a : Str) : Prop where
  text : s.rest = a ++ t.rest
  pos : t.pos = s.pos + a.length

theorem Between.refl (s : St) : Between s s [] := ⟨rfl, rfl⟩

theorem Between.trans {s t u : St} {a b : Str} (h1 : Between s t a) (h2 : Between t u b) : Between s u (a ++ b) :=
  ⟨by rw [h1.text, h2.text]; simp, by rw [h2.pos, h1.pos]; simp [Nat.add_assoc]⟩

theorem Between.unique {s t : St} {a b : Str} (h1 : Between s t a) (h2 : Between s t b) : a = b := by
  have := h1.text.symm.trans h2.text
  exact List.append_cancel_right this

theorem run_between {r : Re} {s t : St} (h : Run r s t) : ∃ a, Between s t a := by
  induction h with
  | nil => exact ⟨[], .refl _⟩
  | @cls p s c r hr _ => exact ⟨[c], ⟨hr, rfl⟩⟩
  | seq _ _ ih1 ih2 => obtain ⟨a, h1⟩ := ih1; obtain ⟨b, h2⟩ := ih2; exact ⟨a ++ b, h1.trans h2⟩
  | left _ ih => exact ih
  | right _ ih => exact ih
  | stop => exact ⟨[], .refl _⟩
  | once _ _ _ ih1 ih2 => obtain ⟨a, h1⟩ := ih1; obtain ⟨b, h2⟩ := ih2; exact ⟨a ++ b, h1.trans h2⟩
  | lstop => exact ⟨[], .refl _⟩
  | lonce _ _ _ ih1 ih2 => obtain ⟨a, h1⟩ := ih1; obtain ⟨b, h2⟩ := ih2; exact ⟨a ++ b, h1.trans h2⟩
  | grp _ ih => obtain ⟨a, h⟩ := ih; exact ⟨a, ⟨h.text, h.pos⟩⟩
  | yes _ _ ih => exact ih
  | no _ _ ih => exact ih
  | eol _ => exact ⟨[], .refl _⟩

/-- What a group that matched between s and t records. -/
theorem close_text {s t : St} {a : Str} (g : G) (h : Between s t a) : (St.close g s t).caps = (g, s.pos, a) :: t.caps := by
  unfold St.close
  rw [h.pos, h.text]
  simp

/-- All characters consumed by a repeated class are in the class. -/
theorem run_star_cls {p : Char → Bool} {s t : St} (h : Run (.star (.cls p)) s t) : ∃ a, Between s t a ∧ (∀ c ∈ a, p c = true) ∧ t.caps = s.caps := by
  generalize hr : Re.star (.cls p) = r at h
  induction h with
  | stop => exact ⟨[], .refl _, by simp, rfl⟩
  | @once a s t u h1 hl h2 _ ih2 =>
    cases hr
    obtain ⟨b, e1, e2, e3⟩ := ih2 rfl
    cases h1 with
    | @cls _ _ c r hc hp =>
      refine ⟨c :: b, ?_, ?_, ?_⟩
      · exact Between.trans (t := s.next r) (a := [c]) ⟨hc, rfl⟩ e1
      · intro d hd
        rcases List.mem_cons.1 hd with rfl | m
        · exact hp
        · exact e2 d m
      · rw [e3]; rfl
  | _ => simp at hr

theorem star_cls_run {p : Char → Bool} (a : Str) : ∀ (s : St) (r : Str), s.rest = a ++ r → (∀ c ∈ a, p c = true) → Run (.star (.cls p)) s (adv s a r) := by
  induction a with
  | nil => intro s r hs _; rw [show r = s.rest by simpa using hs.symm, adv_nil]; exact .stop
  | cons c a ih =>
    intro s r hs ha
    have h1 := ih (s.next (a ++ r)) r rfl (fun d hd => ha d (by simp [hd]))
    rw [next_adv s c, adv_adv] at h1
    refine .once (.cls (c := c) (r := a ++ r) hs (ha c (by simp))) ?_ (by rw [next_adv s c]; exact h1)
    rw [hs]; simp [St.next]

theorem plus_cls_run {p : Char → Bool} (a : Str) (s : St) (r : Str) (hne : a ≠ []) (hs : s.rest = a ++ r) (ha : ∀ c ∈ a, p c = true) :
    Run (plus (.cls p)) s (adv s a r) := by
  obtain ⟨c, a, rfl⟩ := List.exists_cons_of_ne_nil hne
  have h1 := star_cls_run (p := p) a (s.next (a ++ r)) r rfl (fun d hd => ha d (by simp [hd]))
  rw [next_adv s c, adv_adv] at h1
  exact .seq (.cls (c := c) (r := a ++ r) hs (ha c (by simp))) (by rw [next_adv s c]; exact h1)

theorem run_plus_cls {p : Char → Bool} {s t : St} (h : Run (plus (.cls p)) s t) : ∃ a, a ≠ [] ∧ Between s t a ∧ (∀ c ∈ a, p c = true) ∧ t.caps = s.caps := by
  cases h with
  | seq h1 h2 =>
    obtain ⟨b, e1, e2, e3⟩ := run_star_cls h2
    cases h1 with
    | @cls _ _ c r hc hp =>
      refine ⟨c :: b, by simp, Between.trans (t := s.next r) (a := [c]) ⟨hc, rfl⟩ e1, ?_, by rw [e3]; rfl⟩
      intro d hd
      rcases List.mem_cons.1 hd with rfl | m
      · exact hp
      · exact e2 d m

end Lemmas.Regex
