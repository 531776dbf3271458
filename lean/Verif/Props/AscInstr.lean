import Verif.Model.AscInstr
import Verif.Spec.AscInstr
import Verif.Lemmas.AscLoad
import Mathlib.Tactic.Linarith
/-! C47: instructions of an LTspice schematic. -/
namespace Props.AscInstr
open Model.Asc Model.AscInstr Model.PyStr Lemmas.PyStr Lemmas.Asc Lemmas.AscFile
open Spec.AscInstr hiding Str
open Spec.AscFile hiding Str

/-! ### First words -/

theorem wordsAux_lead (b s : Str) (h : ∀ c ∈ b, isSpace c = true) : wordsAux (b ++ s) [] = wordsAux s [] := by
  induction b with
  | nil => rfl
  | cons c b ih =>
    rw [List.cons_append, wordsAux, if_pos (h c List.mem_cons_self), if_pos rfl]
    exact ih (fun d hd => h d (List.mem_cons_of_mem _ hd))

theorem wordsAux_run (w s cur : Str) (h : ∀ c ∈ w, isSpace c = false) : wordsAux (w ++ s) cur = wordsAux s (cur ++ w) := by
  induction w generalizing cur with
  | nil => simp
  | cons c w ih =>
    rw [List.cons_append, wordsAux, if_neg (by simp [h c List.mem_cons_self]), ih _ (fun d hd => h d (List.mem_cons_of_mem _ hd))]
    simp

theorem words_first {s w : Str} (h : FirstWord s w) : ∃ l, words s = w :: l := by
  obtain ⟨b, r, rfl, hb, hw, hr⟩ := h
  unfold words
  rw [List.append_assoc, wordsAux_lead _ _ hb, wordsAux_run _ _ _ hw.2, List.nil_append]
  rcases hr with rfl | ⟨c, r, rfl, hc⟩
  · exact ⟨[], by rw [wordsAux, if_neg hw.1]⟩
  · exact ⟨_, by rw [wordsAux, if_pos hc, if_neg hw.1]⟩

theorem first_words {s w : Str} {l : List Str} (h : words s = w :: l) : FirstWord s w := by
  have hs : s = s.takeWhile isSpace ++ ((s.dropWhile isSpace).takeWhile (fun c => !isSpace c) ++ (s.dropWhile isSpace).dropWhile (fun c => !isSpace c)) := by
    rw [List.takeWhile_append_dropWhile, List.takeWhile_append_dropWhile]
  have h1 : ∀ c ∈ s.takeWhile isSpace, isSpace c = true := fun c hc => List.mem_takeWhile_imp hc
  have h2 : ∀ c ∈ (s.dropWhile isSpace).takeWhile (fun c => !isSpace c), isSpace c = false := by
    intro c hc
    have := List.mem_takeWhile_imp hc
    simpa using this
  by_cases hne : (s.dropWhile isSpace).takeWhile (fun c => !isSpace c) = []
  · exfalso
    cases hd : s.dropWhile isSpace with
    | nil =>
      rw [hd, List.takeWhile_nil, List.dropWhile_nil, List.append_nil] at hs
      rw [hs] at h
      unfold words at h
      have := wordsAux_lead (s.takeWhile isSpace) [] h1
      rw [this] at h
      cases h
    | cons c r =>
      have hc := dropWhile_head_false isSpace s c (by rw [hd]; rfl)
      rw [hd, List.takeWhile_cons, if_pos (by simp [hc])] at hne
      cases hne
  · have hF : FirstWord s ((s.dropWhile isSpace).takeWhile (fun c => !isSpace c)) := by
      refine ⟨_, _, by rw [List.append_assoc]; exact hs, h1, ⟨hne, h2⟩, ?_⟩
      cases hd : (s.dropWhile isSpace).dropWhile (fun c => !isSpace c) with
      | nil => exact Or.inl rfl
      | cons c r =>
        right
        refine ⟨c, r, rfl, ?_⟩
        have := dropWhile_head_false (fun c => !isSpace c) (s.dropWhile isSpace) c (by rw [hd]; rfl)
        simpa using this
    obtain ⟨l', hl⟩ := words_first hF
    rw [h] at hl
    rw [(List.cons.inj hl).1]
    exact hF

theorem mem_unique (c : Str) : c ∈ unique ↔ ∃ a ∈ Spec.Directive.analyses, c = a.toList := by
  simp [unique, Spec.Directive.analyses]

theorem command_ok {s c : Str} (h : command s = .ok c) : Command s ↔ c ∈ unique := by
  unfold command at h
  split at h
  · cases h
  · rename_i w l hw
    obtain rfl : upper w = c := by injection h
    rw [mem_unique]
    constructor
    · rintro ⟨v, hv, hc⟩
      obtain ⟨l', hl⟩ := words_first hv
      rw [hw] at hl
      rw [(List.cons.inj hl).1]
      exact hc
    · intro hc
      exact ⟨w, first_words hw, hc⟩

theorem words_strip (s : Str) : words (strip s) = words s := by
  have hl : words (lstrip s) = words s := by
    have hs : s = s.takeWhile isSpace ++ s.dropWhile isSpace := (List.takeWhile_append_dropWhile).symm
    conv_rhs => rw [hs]
    unfold words lstrip
    rw [wordsAux_lead _ _ (fun c hc => List.mem_takeWhile_imp hc)]
  have hr : ∀ t cur : Str, wordsAux (rstrip t) cur = wordsAux t cur := by
    have tail : ∀ (b cur : Str), (∀ c ∈ b, isSpace c = true) → wordsAux b cur = wordsAux [] cur := by
      intro b
      induction b with
      | nil => intros; rfl
      | cons c b ih =>
        intro cur hb
        rw [show wordsAux (c :: b) cur = if isSpace c then (if cur = [] then wordsAux b [] else cur :: wordsAux b []) else wordsAux b (cur ++ [c]) from rfl,
          if_pos (hb c List.mem_cons_self), ih [] (fun d hd => hb d (List.mem_cons_of_mem _ hd))]
        by_cases hc : cur = []
        · subst hc; rfl
        · rw [if_neg hc]; simp [wordsAux, hc]
    have app : ∀ (t b cur : Str), (∀ c ∈ b, isSpace c = true) → wordsAux (t ++ b) cur = wordsAux t cur := by
      intro t
      induction t with
      | nil => intro b cur hb; exact tail b cur hb
      | cons c t ih =>
        intro b cur hb
        rw [List.cons_append, wordsAux, wordsAux, ih _ _ hb, ih _ _ hb]
    intro t cur
    have ht : t = rstrip t ++ (t.reverse.takeWhile isSpace).reverse := by
      unfold rstrip
      rw [← List.reverse_append, List.takeWhile_append_dropWhile, List.reverse_reverse]
    conv_rhs => rw [ht]
    rw [app]
    intro c hc
    exact List.mem_takeWhile_imp (List.mem_reverse.1 hc)
  unfold strip
  unfold words at hl ⊢
  rw [hr, hl]

theorem command_strip (s : Str) : command (strip s) = command s := by unfold command; rw [words_strip]

theorem Command_strip (s : Str) : Command (strip s) ↔ Command s := by
  constructor
  · rintro ⟨w, hw, hc⟩
    obtain ⟨l, hl⟩ := words_first hw
    rw [words_strip] at hl
    exact ⟨w, first_words hl, hc⟩
  · rintro ⟨w, hw, hc⟩
    obtain ⟨l, hl⟩ := words_first hw
    rw [← words_strip] at hl
    exact ⟨w, first_words hl, hc⟩

/-! ### Adding -/

theorem replaceFirst_some {i : Str} {l ds : List Text} {old : Str} (h : replaceFirst i l = .ok (some (ds, old))) :
    ∃ a t b, l = a ++ t :: b ∧ (∀ x ∈ a, ¬ Simulates x) ∧ Simulates t ∧ ds = a ++ { t with text := i } :: b ∧ old = strip t.text := by
  induction l generalizing ds old with
  | nil => simp [replaceFirst] at h
  | cons t l ih =>
    have go : ∀ (hn : ¬ Simulates t), (replaceFirst i l).map (Option.map (fun p => (t :: p.1, p.2))) = .ok (some (ds, old)) →
        ∃ a u b, t :: l = a ++ u :: b ∧ (∀ x ∈ a, ¬ Simulates x) ∧ Simulates u ∧ ds = a ++ { u with text := i } :: b ∧ old = strip u.text := by
      intro hn h
      cases hr : replaceFirst i l with
      | error e => rw [hr] at h; cases h
      | ok o =>
        rw [hr] at h
        cases o with
        | none => simp [Except.map] at h
        | some p =>
          obtain ⟨ds', old'⟩ := p
          simp only [Except.map, Option.map_some, Except.ok.injEq, Option.some.injEq, Prod.mk.injEq] at h
          obtain ⟨rfl, rfl⟩ := h
          obtain ⟨a, u, b, e1, e2, e3, e4, e5⟩ := ih hr
          refine ⟨t :: a, u, b, by rw [e1]; rfl, ?_, e3, by rw [e4]; rfl, e5⟩
          intro x hx
          rcases List.mem_cons.1 hx with rfl | hx
          · exact hn
          · exact e2 x hx
    rw [replaceFirst] at h
    by_cases hc : t.type = .comment
    · rw [if_pos hc] at h
      exact go (fun hs => hs.1 hc) h
    · rw [if_neg hc] at h
      cases hcmd : command (strip t.text) with
      | error e => rw [hcmd] at h; cases h
      | ok c =>
        rw [hcmd] at h
        simp only at h
        have hiff : Simulates t ↔ c ∈ unique := by
          unfold Simulates
          rw [← Command_strip, command_ok hcmd]
          exact ⟨fun h => h.2, fun h => ⟨hc, h⟩⟩
        by_cases hu : c ∈ unique
        · rw [if_pos hu] at h
          simp only [Except.ok.injEq, Option.some.injEq, Prod.mk.injEq] at h
          obtain ⟨rfl, rfl⟩ := h
          exact ⟨[], t, l, rfl, by simp, hiff.2 hu, rfl, rfl⟩
        · rw [if_neg hu] at h
          exact go (fun hs => hu (hiff.1 hs)) h

theorem replaceFirst_none {i : Str} {l : List Text} (h : replaceFirst i l = .ok none) : ∀ x ∈ l, ¬ Simulates x := by
  induction l with
  | nil => simp
  | cons t l ih =>
    have go : ∀ (hn : ¬ Simulates t), (replaceFirst i l).map (Option.map (fun p => (t :: p.1, p.2))) = .ok none →
        ∀ x ∈ t :: l, ¬ Simulates x := by
      intro hn h
      cases hr : replaceFirst i l with
      | error e => rw [hr] at h; cases h
      | ok o =>
        rw [hr] at h
        cases o with
        | some p => simp [Except.map] at h
        | none =>
          intro x hx
          rcases List.mem_cons.1 hx with rfl | hx
          · exact hn
          · exact ih hr x hx
    rw [replaceFirst] at h
    by_cases hc : t.type = .comment
    · rw [if_pos hc] at h
      exact go (fun hs => hs.1 hc) h
    · rw [if_neg hc] at h
      cases hcmd : command (strip t.text) with
      | error e => rw [hcmd] at h; cases h
      | ok c =>
        rw [hcmd] at h
        simp only at h
        by_cases hu : c ∈ unique
        · rw [if_pos hu] at h
          cases h
        · rw [if_neg hu] at h
          refine go (fun hs => hu ?_) h
          rw [← command_ok hcmd, Command_strip]
          exact hs.2

theorem append_ok {s s' : Sch} {i : Str} {log : List Entry} (h : append s i = .ok (s', log)) :
    ∃ x y, textSpace s = .ok (x, y) ∧
      s' = { s with directives := s.directives ++ [{ x, y, text := i, size := 2, type := .directive }] } ∧ log = [.added i] := by
  unfold append at h
  cases ht : textSpace s with
  | error e => rw [ht] at h; cases h
  | ok p =>
    rw [ht] at h
    simp only [Except.ok.injEq, Prod.mk.injEq] at h
    exact ⟨p.1, p.2, rfl, h.1.symm, h.2.symm⟩

/-- Adding an analysis command: the text of the first one there is replaced where it stands, both are recorded; when there is none it
is added at the end. -/
theorem C47_add_command (s s' : Sch) (i : Str) (log : List Entry) (hi : Command i) (h : add s i = .ok (s', log)) :
    (∃ (a b : List Text) (t : Text), s.directives = a ++ t :: b ∧ (∀ x ∈ a, ¬ Simulates x) ∧ Simulates t ∧
      s' = { s with directives := a ++ { t with text := strip i } :: b } ∧ log = [.deleted (strip t.text), .added (strip i)]) ∨
    ((∀ x ∈ s.directives, ¬ Simulates x) ∧ ∃ x y : Int,
      s' = { s with directives := s.directives ++ [{ x, y, text := strip i, size := 2, type := .directive }] } ∧ log = [.added (strip i)]) := by
  unfold add at h
  simp only at h
  cases hc : command (strip i) with
  | error e => rw [hc] at h; cases h
  | ok c =>
    rw [hc] at h
    simp only at h
    have hu : c ∈ unique := (command_ok hc).1 ((Command_strip i).2 hi)
    rw [if_pos hu] at h
    cases hr : replaceFirst (strip i) s.directives with
    | error e => rw [hr] at h; cases h
    | ok o =>
      rw [hr] at h
      cases o with
      | none =>
        obtain ⟨x, y, _, e1, e2⟩ := append_ok h
        exact Or.inr ⟨replaceFirst_none hr, x, y, e1, e2⟩
      | some p =>
        obtain ⟨ds, old⟩ := p
        simp only [Except.ok.injEq, Prod.mk.injEq] at h
        obtain ⟨a, t, b, e1, e2, e3, e4, e5⟩ := replaceFirst_some hr
        exact Or.inl ⟨a, b, t, e1, e2, e3, by rw [← h.1, e4], by rw [← h.2, e5]⟩

/-- Adding anything else: it is added at the end and nothing is replaced. -/
theorem C47_add_other (s s' : Sch) (i : Str) (log : List Entry) (hi : ¬ Command i) (h : add s i = .ok (s', log)) :
    ∃ x y : Int, s' = { s with directives := s.directives ++ [{ x, y, text := strip i, size := 2, type := .directive }] } ∧
      log = [.added (strip i)] := by
  unfold add at h
  simp only at h
  cases hc : command (strip i) with
  | error e => rw [hc] at h; cases h
  | ok c =>
    rw [hc] at h
    simp only at h
    rw [if_neg (fun hu => hi ((Command_strip i).1 ((command_ok hc).2 hu)))] at h
    split_ifs at h
    obtain ⟨x, y, _, e1, e2⟩ := append_ok h
    exact ⟨x, y, e1, e2⟩

/-- When adding succeeds: the instruction has a first word that does not start with .PARAM, the sheet entry is in order, and no
directive has an empty text. -/
theorem C47_add_succeeds (s : Sch) (i w : Str) (hw : FirstWord i w) (hp : ¬ ".PARAM".toList <+: upper w)
    (hs : ∃ p, textSpace s = .ok p) (hd : ∀ t ∈ s.directives, t.type ≠ .comment → ∃ v, FirstWord t.text v) :
    ∃ r, add s i = .ok r := by
  have ha : ∃ r, append s (strip i) = .ok r := by
    obtain ⟨p, hp⟩ := hs
    unfold append
    rw [hp]
    exact ⟨_, rfl⟩
  have hr : ∀ l : List Text, (∀ t ∈ l, t.type ≠ .comment → ∃ v, FirstWord t.text v) → ∃ o, replaceFirst (strip i) l = .ok o := by
    intro l
    induction l with
    | nil => intro _; exact ⟨none, rfl⟩
    | cons t l ih =>
      intro hl
      obtain ⟨o, ho⟩ := ih (fun u hu => hl u (List.mem_cons_of_mem _ hu))
      rw [replaceFirst]
      by_cases hc : t.type = .comment
      · rw [if_pos hc, ho]; exact ⟨_, rfl⟩
      · rw [if_neg hc]
        obtain ⟨v, hv⟩ := hl t List.mem_cons_self hc
        obtain ⟨l', hl'⟩ := words_first hv
        have : command (strip t.text) = .ok (upper v) := by rw [command_strip]; unfold command; rw [hl']
        rw [this]
        simp only
        split_ifs
        · exact ⟨_, rfl⟩
        · rw [ho]; exact ⟨_, rfl⟩
  obtain ⟨l, hl⟩ := words_first hw
  have hc : command (strip i) = .ok (upper w) := by rw [command_strip]; unfold command; rw [hl]
  unfold add
  simp only [hc]
  split_ifs with h1 h2
  · obtain ⟨o, ho⟩ := hr s.directives hd
    rw [ho]
    cases o with
    | none => exact ha
    | some p => exact ⟨_, rfl⟩
  · exact absurd (List.isPrefixOf_iff_prefix.1 h2) hp
  · exact ha

/-- Parameters are refused, and so is an instruction without a word. -/
theorem C47_add_refused (s : Sch) (i : Str) :
    ((∃ w, FirstWord i w ∧ ".PARAM".toList <+: upper w) → add s i = .error .param) ∧ ((∀ w, ¬ FirstWord i w) → add s i = .error .index) := by
  constructor
  · rintro ⟨w, hw, hp⟩
    obtain ⟨l, hl⟩ := words_first hw
    have hc : command (strip i) = .ok (upper w) := by rw [command_strip]; unfold command; rw [hl]
    unfold add
    simp only [hc]
    rw [if_neg, if_pos (List.isPrefixOf_iff_prefix.2 hp)]
    intro hu
    simp only [unique, List.mem_cons, List.not_mem_nil, or_false] at hu
    rcases hu with e | e | e | e | e <;> (rw [e] at hp; revert hp; decide)
  · intro h
    have : command (strip i) = .error .index := by
      rw [command_strip]
      unfold command
      cases hw : words i with
      | nil => rfl
      | cons w l => exact absurd (first_words hw) (h w)
    unfold add
    simp only [this]

/-! ### Removing -/

theorem removeFirst_some {i : Str} {l ds : List Text} {old : Str} (h : removeFirst i l = some (ds, old)) :
    ∃ a t b, l = a ++ t :: b ∧ ds = a ++ b ∧ old = t.text ∧ t.type ≠ .comment ∧ contains i t.text = true ∧
      ∀ x ∈ a, x.type = .comment ∨ contains i x.text = false := by
  induction l generalizing ds old with
  | nil => cases h
  | cons t l ih =>
    have go : (t.type = .comment ∨ contains i t.text = false) → (removeFirst i l).map (fun p => (t :: p.1, p.2)) = some (ds, old) →
        ∃ a u b, t :: l = a ++ u :: b ∧ ds = a ++ b ∧ old = u.text ∧ u.type ≠ .comment ∧ contains i u.text = true ∧
          ∀ x ∈ a, x.type = .comment ∨ contains i x.text = false := by
      intro ht h
      rw [Option.map_eq_some_iff] at h
      obtain ⟨⟨ds', old'⟩, h1, h2⟩ := h
      simp only [Prod.mk.injEq] at h2
      obtain ⟨rfl, rfl⟩ := h2
      obtain ⟨a, u, b, e1, e2, e3, e4, e5, e6⟩ := ih h1
      refine ⟨t :: a, u, b, by rw [e1]; rfl, by rw [e2]; rfl, e3, e4, e5, ?_⟩
      intro x hx
      rcases List.mem_cons.1 hx with rfl | hx
      · exact ht
      · exact e6 x hx
    rw [removeFirst] at h
    by_cases hc : t.type = .comment
    · rw [if_pos hc] at h
      exact go (Or.inl hc) h
    · rw [if_neg hc] at h
      by_cases hi : contains i t.text = true
      · rw [if_pos hi] at h
        simp only [Option.some.injEq, Prod.mk.injEq] at h
        exact ⟨[], t, l, rfl, h.1.symm, h.2.symm, hc, hi, by simp⟩
      · rw [if_neg hi] at h
        exact go (Or.inr (by simpa using hi)) h

theorem removeFirst_none {i : Str} {l : List Text} (h : removeFirst i l = none) : ∀ x ∈ l, x.type = .comment ∨ contains i x.text = false := by
  induction l with
  | nil => simp
  | cons t l ih =>
    rw [removeFirst] at h
    intro x hx
    by_cases hc : t.type = .comment
    · rw [if_pos hc, Option.map_eq_none_iff] at h
      rcases List.mem_cons.1 hx with rfl | hx
      · exact Or.inl hc
      · exact ih h x hx
    · rw [if_neg hc] at h
      by_cases hi : contains i t.text = true
      · rw [if_pos hi] at h; cases h
      · rw [if_neg hi, Option.map_eq_none_iff] at h
        rcases List.mem_cons.1 hx with rfl | hx
        · exact Or.inr (by simpa using hi)
        · exact ih h x hx

/-- remove_instruction takes out the first directive that contains the text, records it and says so; otherwise nothing happens. -/
theorem C47_remove (s : Sch) (i : Str) :
    (∃ (a b : List Text) (t : Text), s.directives = a ++ t :: b ∧ t.type ≠ .comment ∧ contains i t.text = true ∧
      (∀ x ∈ a, x.type = .comment ∨ contains i x.text = false) ∧
      remove s i = ({ s with directives := a ++ b }, [.deleted t.text], true)) ∨
    ((∀ x ∈ s.directives, x.type = .comment ∨ contains i x.text = false) ∧ remove s i = (s, [], false)) := by
  unfold remove
  cases h : removeFirst i s.directives with
  | none => exact Or.inr ⟨removeFirst_none h, rfl⟩
  | some p =>
    obtain ⟨ds, old⟩ := p
    obtain ⟨a, t, b, e1, e2, e3, e4, e5, e6⟩ := removeFirst_some h
    exact Or.inl ⟨a, b, t, e1, e4, e5, e6, by rw [e2, e3]⟩

theorem removeAll_eq (m : Str → Bool) (l : List Text) :
    removeAll m l = (l.filter (fun t => t.type == .comment || !m t.text), (l.filter (fun t => !(t.type == .comment) && m t.text)).map (fun t => .deleted t.text)) := by
  induction l with
  | nil => rfl
  | cons t l ih =>
    rw [removeAll, ih]
    by_cases hc : t.type = .comment
    · simp [hc]
    · by_cases hm : m t.text = true
      · simp [hc, hm]
      · simp [hc, hm]

/-- remove_Xinstruction takes out exactly the directives whose text matches, in order, records each of them, and says whether there
was one. -/
theorem C47_removeX (s : Sch) (m : Str → Bool) :
    (removeX s m).1 = { s with directives := s.directives.filter (fun t => t.type == .comment || !m t.text) } ∧
    (removeX s m).2.1 = (s.directives.filter (fun t => !(t.type == .comment) && m t.text)).map (fun t => .deleted t.text) ∧
    ((removeX s m).2.2 = true ↔ ∃ t ∈ s.directives, t.type ≠ .comment ∧ m t.text = true) := by
  unfold removeX
  rw [removeAll_eq]
  refine ⟨rfl, rfl, ?_⟩
  simp [List.isEmpty_iff]

/-! ### Any sequence of edits -/

theorem atMostOne_iff (l : List Text) : AtMostOne l ↔ l.Pairwise (fun t u => ¬ (Simulates t ∧ Simulates u)) := by
  constructor
  · intro h
    induction l with
    | nil => exact List.Pairwise.nil
    | cons t l ih =>
      refine List.pairwise_cons.2 ⟨?_, ih ?_⟩
      · intro u hu
        obtain ⟨b, c, rfl⟩ := List.append_of_mem hu
        exact h [] b c t u rfl
      · intro a b c x u e
        exact h (t :: a) b c x u (by rw [e]; rfl)
  · intro h a b c t u e
    rw [e] at h
    rw [List.append_assoc, List.pairwise_append] at h
    exact (List.pairwise_cons.1 h.2.1).1 u (by simp)

theorem apply_cases (s : Sch) (op : Op) :
    (∃ (a b : List Text) (t : Text) (i : Str), s.directives = a ++ t :: b ∧ Simulates t ∧ (apply s op) = { s with directives := a ++ { t with text := i } :: b }) ∨
    (∃ (t : Text), t.type = .directive ∧ (Simulates t → ∀ x ∈ s.directives, ¬ Simulates x) ∧ (apply s op) = { s with directives := s.directives ++ [t] }) ∨
    (∃ ds : List Text, ds.Sublist s.directives ∧ comments ds = comments s.directives ∧ (apply s op) = { s with directives := ds }) := by
  cases op with
  | add i =>
    unfold apply
    simp only
    cases h : add s i with
    | error e => exact Or.inr (Or.inr ⟨s.directives, List.Sublist.refl _, rfl, rfl⟩)
    | ok p =>
      obtain ⟨s', log⟩ := p
      by_cases hi : Command i
      · rcases C47_add_command s s' i log hi h with ⟨a, b, t, e1, _, e3, e4, _⟩ | ⟨hn, x, y, e, _⟩
        · exact Or.inl ⟨a, b, t, strip i, e1, e3, e4⟩
        · exact Or.inr (Or.inl ⟨_, rfl, fun _ => hn, e⟩)
      · obtain ⟨x, y, e, _⟩ := C47_add_other s s' i log hi h
        exact Or.inr (Or.inl ⟨_, rfl, fun hs => absurd ((Command_strip i).1 hs.2) hi, e⟩)
  | remove i =>
    right; right
    rcases C47_remove s i with ⟨a, b, t, e1, e2, _, _, e5⟩ | ⟨_, e⟩
    · refine ⟨a ++ b, ?_, ?_, congrArg Prod.fst e5⟩
      · rw [e1]; exact List.Sublist.append_left (List.sublist_cons_self _ _) _
      · rw [e1]; simp [comments, e2]
    · exact ⟨s.directives, List.Sublist.refl _, rfl, congrArg Prod.fst e⟩
  | removeX m =>
    right; right
    refine ⟨s.directives.filter (fun t => t.type == .comment || !m t.text), List.filter_sublist, ?_, (C47_removeX s m).1⟩
    unfold comments
    rw [List.filter_filter]
    apply List.filter_congr
    intro t _
    by_cases hc : t.type = .comment <;> simp [hc]

/-- A schematic with at most one analysis command keeps at most one, whatever sequence of additions and removals. -/
theorem C47_at_most_one (s : Sch) (h : AtMostOne s.directives) (ops : List Op) : AtMostOne (ops.foldl apply s).directives := by
  induction ops generalizing s with
  | nil => exact h
  | cons op ops ih =>
    apply ih
    rw [atMostOne_iff] at h ⊢
    rcases apply_cases s op with ⟨a, b, t, i, e1, e2, e3⟩ | ⟨t, e1, e2, e3⟩ | ⟨ds, e1, _, e3⟩
    · rw [e3]
      rw [e1, List.pairwise_append, List.pairwise_cons] at h
      simp only
      rw [List.pairwise_append, List.pairwise_cons]
      obtain ⟨h1, ⟨h2, h3⟩, h4⟩ := h
      refine ⟨h1, ⟨?_, h3⟩, ?_⟩
      · intro u hu hh
        exact h2 u hu ⟨e2, hh.2⟩
      · intro x hx u hu hh
        rcases List.mem_cons.1 hu with rfl | hu
        · exact h4 x hx t List.mem_cons_self ⟨hh.1, e2⟩
        · exact h4 x hx u (List.mem_cons_of_mem _ hu) hh
    · rw [e3]
      simp only
      rw [List.pairwise_append]
      refine ⟨h, List.pairwise_singleton _ _, ?_⟩
      intro x hx u hu hh
      obtain rfl := List.mem_singleton.1 hu
      exact e2 hh.2 x hx hh.1
    · rw [e3]
      exact h.sublist e1

/-- Comments are never touched: after any sequence of edits they are the same ones in the same order. -/
theorem C47_comments (s : Sch) (ops : List Op) : comments (ops.foldl apply s).directives = comments s.directives := by
  induction ops generalizing s with
  | nil => rfl
  | cons op ops ih =>
    rw [List.foldl_cons, ih]
    rcases apply_cases s op with ⟨a, b, t, i, e1, e2, e3⟩ | ⟨t, e1, e2, e3⟩ | ⟨ds, _, e1, e3⟩
    · rw [e3, e1]
      have h1 : (t.type == TextType.comment) = false := by simpa using e2.1
      simp [comments, h1]
    · rw [e3]
      simp [comments, e1]
    · rw [e3]; exact e1

/-- Nothing but the directives changes. -/
theorem C47_frame (s : Sch) (ops : List Op) : { (ops.foldl apply s) with directives := [] } = { s with directives := [] } := by
  induction ops generalizing s with
  | nil => rfl
  | cons op ops ih =>
    rw [List.foldl_cons, ih]
    rcases apply_cases s op with ⟨a, b, t, i, e1, e2, e3⟩ | ⟨t, e1, e2, e3⟩ | ⟨ds, _, e1, e3⟩ <;> rw [e3]

/-! ### Position of a new text -/

theorem foldl_min_le (m : Int) (l : List Int) : l.foldl min m ≤ m ∧ ∀ x ∈ l, l.foldl min m ≤ x := by
  induction l generalizing m with
  | nil => simp
  | cons a l ih =>
    obtain ⟨h1, h2⟩ := ih (min m a)
    rw [List.foldl_cons]
    refine ⟨by omega, ?_⟩
    intro x hx
    rcases List.mem_cons.1 hx with rfl | hx
    · omega
    · exact h2 x hx

theorem foldl_max_le (m : Int) (l : List Int) : m ≤ l.foldl max m ∧ ∀ x ∈ l, x ≤ l.foldl max m := by
  induction l generalizing m with
  | nil => simp
  | cons a l ih =>
    obtain ⟨h1, h2⟩ := ih (max m a)
    rw [List.foldl_cons]
    refine ⟨by omega, ?_⟩
    intro x hx
    rcases List.mem_cons.1 hx with rfl | hx
    · omega
    · exact h2 x hx

/-- A new text stands below every wire, label, directive and component (y grows downwards), and not to the right of any of them. -/
theorem C47_position (s : Sch) (x y : Int) (h : textSpace s = .ok (x, y)) :
    (∀ w ∈ s.wires, x ≤ w.x1 ∧ x ≤ w.x2 ∧ w.y1 + 24 ≤ y ∧ w.y2 + 24 ≤ y) ∧
    (∀ t ∈ s.labels ++ s.directives, x ≤ t.x ∧ t.y + 24 ≤ y) ∧
    (∀ c ∈ s.comps, x ≤ c.2.x ∧ c.2.y + 24 ≤ y) := by
  unfold textSpace at h
  split at h
  · split at h
    · rename_i x0 _ _ _
      simp only [Except.ok.injEq, Prod.mk.injEq] at h
      obtain ⟨hx, hy⟩ := h
      have X : ∀ v ∈ xs s, x ≤ v := by rw [← hx]; exact (foldl_min_le _ _).2
      have Y : ∀ v ∈ ys s, v + 24 ≤ y := by
        intro v hv
        have := (foldl_max_le (-100000) (ys s)).2 v hv
        unfold maxOf at hy
        omega
      refine ⟨fun w hw => ⟨X _ ?_, X _ ?_, Y _ ?_, Y _ ?_⟩, fun t ht => ⟨X _ ?_, Y _ ?_⟩, fun c hc => ⟨X _ ?_, Y _ ?_⟩⟩
      all_goals simp only [xs, ys, List.mem_append, List.mem_flatMap, List.mem_map]
      · exact Or.inl (Or.inl (Or.inl ⟨w, hw, by simp⟩))
      · exact Or.inl (Or.inl (Or.inl ⟨w, hw, by simp⟩))
      · exact Or.inl (Or.inl (Or.inl ⟨w, hw, by simp⟩))
      · exact Or.inl (Or.inl (Or.inl ⟨w, hw, by simp⟩))
      · rcases List.mem_append.1 ht with ht | ht
        · exact Or.inl (Or.inl (Or.inr ⟨t, ht, rfl⟩))
        · exact Or.inl (Or.inr ⟨t, ht, rfl⟩)
      · rcases List.mem_append.1 ht with ht | ht
        · exact Or.inl (Or.inl (Or.inr ⟨t, ht, rfl⟩))
        · exact Or.inl (Or.inr ⟨t, ht, rfl⟩)
      · exact Or.inr ⟨c, hc, rfl⟩
      · exact Or.inr ⟨c, hc, rfl⟩
    · cases h
  · cases h

/-! ### Saving afterwards -/

/-- After any additions of one-line instructions and any removals a well formed schematic is still well formed, so that it can be
saved and loaded again (C58). -/
theorem C47_still_saveable (s : Sch) (h : WellFormed s) (ops : List Op) (hl : ∀ i, Op.add i ∈ ops → '\n' ∉ i) :
    WellFormed (ops.foldl apply s) ∧ ∃ txt, save (ops.foldl apply s) = some txt ∧ Model.Asc.read txt = some (settled (ops.foldl apply s)) := by
  have main : WellFormed (ops.foldl apply s) := by
    induction ops generalizing s with
    | nil => exact h
    | cons op ops ih =>
      apply ih _ _ (fun i hi => hl i (List.mem_cons_of_mem _ hi))
      have hd : ∀ t ∈ (apply s op).directives, DirectiveOk t := by
        cases op with
        | add i =>
          have ht : Trimmed (strip i) := trimmed_strip (hl i List.mem_cons_self)
          unfold apply
          simp only
          cases ha : add s i with
          | error e => exact h.directives
          | ok p =>
            obtain ⟨s', log⟩ := p
            simp only
            have new : ∀ (x y : Int), DirectiveOk { x, y, text := strip i, size := 2, type := .directive } :=
              fun x y => ⟨Or.inl rfl, ⟨Or.inl rfl, fun e => by cases e⟩, rfl, (by decide : (0 : Int) ≤ 2), ht⟩
            by_cases hi : Command i
            · rcases C47_add_command s s' i log hi ha with ⟨a, b, t, e1, _, e3, e4, _⟩ | ⟨hn, x, y, e, _⟩
              · rw [e4]
                intro u hu
                have hd := h.directives
                rw [e1] at hd
                rcases List.mem_append.1 hu with hu | hu
                · exact hd u (List.mem_append_left _ hu)
                · rcases List.mem_cons.1 hu with rfl | hu
                  · obtain ⟨a1, a2, a3, a4, a5⟩ := hd t (by simp)
                    exact ⟨a1, a2, a3, a4, ht⟩
                  · exact hd u (List.mem_append_right _ (List.mem_cons_of_mem _ hu))
              · rw [e]
                exact Lemmas.AscLoad.forall_append h.directives (new x y)
            · obtain ⟨x, y, e, _⟩ := C47_add_other s s' i log hi ha
              rw [e]
              exact Lemmas.AscLoad.forall_append h.directives (new x y)
        | remove i =>
          rcases C47_remove s i with ⟨a, b, t, e1, e2, _, _, e5⟩ | ⟨_, e⟩
          · rw [show apply s (.remove i) = _ from congrArg Prod.fst e5]
            intro u hu
            apply h.directives
            rw [e1]
            rcases List.mem_append.1 hu with hu | hu
            · exact List.mem_append_left _ hu
            · exact List.mem_append_right _ (List.mem_cons_of_mem _ hu)
          · rw [show apply s (.remove i) = _ from congrArg Prod.fst e]; exact h.directives
        | removeX m =>
          rw [show apply s (.removeX m) = _ from (C47_removeX s m).1]
          intro u hu
          exact h.directives u (List.mem_of_mem_filter hu)
      have hf := C47_frame s [op]
      simp only [List.foldl_cons, List.foldl_nil, Sch.mk.injEq] at hf
      obtain ⟨f1, f2, f3, f4, f5, f6, _, f7, f8⟩ := hf
      obtain ⟨a, b, d, e, f, g, i, j, k⟩ := h
      exact ⟨by rw [f1]; exact a, by rw [f2]; exact b, by rw [f3]; exact d, by rw [f4]; exact e, by rw [f6]; exact f, by rw [f6]; exact g, hd,
        by rw [f7]; exact j, by rw [f8]; exact k⟩
  exact ⟨main, read_save main⟩

/-! ### Examples and limits -/

def exI : Sch := { directives := [{ x := 0, y := 8, text := "run .tran".toList, type := .comment },
  { x := 0, y := 16, text := ".tran 1m".toList, type := .directive }, { x := 0, y := 32, text := ".save all".toList, type := .directive }] }

example : add exI " .AC dec 10 1 1k ".toList = .ok ({ directives := [{ x := 0, y := 8, text := "run .tran".toList, type := .comment },
  { x := 0, y := 16, text := ".AC dec 10 1 1k".toList, type := .directive }, { x := 0, y := 32, text := ".save all".toList, type := .directive }] },
  [.deleted ".tran 1m".toList, .added ".AC dec 10 1 1k".toList]) := by decide +kernel
example : ∃ x y, textSpace exI = .ok (x, y) ∧ x = 0 ∧ y = 56 := ⟨0, 56, by decide +kernel, rfl, rfl⟩
example : Simulates { x := 0, y := 16, text := ".tran 1m".toList, type := .directive } :=
  ⟨by decide, ".tran".toList, ⟨[], " 1m".toList, rfl, by simp, ⟨by decide, by decide⟩, Or.inr ⟨' ', "1m".toList, rfl, by decide⟩⟩, ".TRAN", by simp [Spec.Directive.analyses], by decide⟩

/-- A directive of several lines (LTspice writes them with \n) is only known by its first command: adding an analysis gives two. -/
theorem C47_second_line : ∃ s' log, add { directives := [{ x := 0, y := 0, text := ".param a=1\\n.tran 1m".toList, type := .directive }] } ".ac dec 1 1 2".toList =
    .ok (s', log) ∧ s'.directives.map Text.text = [".param a=1\\n.tran 1m".toList, ".ac dec 1 1 2".toList] :=
  ⟨{ directives := [{ x := 0, y := 0, text := ".param a=1\\n.tran 1m".toList, type := .directive },
     { x := 0, y := 24, text := ".ac dec 1 1 2".toList, size := 2, type := .directive }] }, [.added ".ac dec 1 1 2".toList],
   by decide +kernel, by decide +kernel⟩

/-- One empty directive is enough to make adding an analysis fail. -/
theorem C47_empty_directive : add { directives := [{ x := 0, y := 0, text := [], type := .directive }] } ".op".toList ≠ .error .index ∧
    add { directives := [{ x := 0, y := 0, text := [], type := .directive }] } ".tran 1".toList = .error .index :=
  ⟨by decide +kernel, by decide +kernel⟩

/-- An instruction with a newline in it makes the saved file unreadable. -/
theorem C47_newline : ∃ s' log txt, add {} ".op\n.backanno".toList = .ok (s', log) ∧ save s' = some txt ∧ Model.Asc.read txt = none :=
  ⟨{ directives := [{ x := 0, y := -99976, text := ".op\n.backanno".toList, size := 2, type := .directive }] }, [.added ".op\n.backanno".toList],
   "Version 4\nSHEET 1 0 0\nTEXT 0 -99976 Left 2 !.op\n.backanno\n".toList, by decide +kernel, by decide +kernel, by decide +kernel⟩

end Props.AscInstr
