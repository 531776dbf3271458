import Verif.Model.LogFile
import Verif.Spec.LogFile
import Verif.Lemmas.Regex
import Verif.Lemmas.PyStr
import Verif.Props.LogRead
import Verif.Props.Export
import Verif.Props.CompLine
import Verif.Props.RawSteps
/-
C76: LTspice log files as a whole.
-/
namespace Props.LogFile
open Model.LogFile
open Model.Regex (Re G go exec plus opt more)
open Model.PyStr (isSpace strip)
open Model.CompLine (lit sp dot WordClass words)
open Model.Export (fileLines group)
open Model.LogData (Name Dict lower)
open Model.LogRead (Steps stepLine splitOn put MLine readMeasures)
open Spec.LogFile hiding Str
open Lemmas.Regex
open Props.LogRead (Tok hasAssign Table column)

abbrev Str := List Char
abbrev RSt := Model.Regex.St

/-! ### The expression of single-line measurements -/

theorem go_seq (a b : Re) (k : RSt → Option RSt) (s : RSt) : go (.seq a b) k s = go a (go b k) s := rfl
theorem go_grp (g : G) (a : Re) (k : RSt → Option RSt) (s : RSt) : go (.grp g a) k s = go a (fun t => k (Model.Regex.St.close g s t)) s := rfl
theorem go_alt (a b : Re) (k : RSt → Option RSt) (s : RSt) : go (.alt a b) k s = (go a k s).or (go b k s) := rfl

theorem go_ilits (pat : Str) (r : Re) (k : RSt → Option RSt) : ∀ (a : Str) (s : RSt) (rest : Str), a.map Char.toUpper = pat → s.rest = a ++ rest →
    go (ilits pat r) k s = go r k (adv s a rest) := by
  induction pat with
  | nil =>
    intro a s rest ha h
    have : a = [] := by simpa using ha
    subst this
    simp only [ilits]
    rw [← show s.rest = rest by simpa using h, adv_nil]
  | cons c pat ih =>
    intro a s rest ha h
    cases a with
    | nil => simp at ha
    | cons d a =>
      simp only [List.map_cons, List.cons.injEq] at ha
      simp only [ilits]
      rw [go_seq]
      have hs : s.rest = d :: (a ++ rest) := h
      simp only [go, hs, ha.1]
      rw [if_pos (by simp), ih a (s.next (a ++ rest)) rest ha.2 rfl, next_adv s d, Lemmas.Regex.adv_adv]
      rfl

theorem ilits_none (a b : Char) (cs : Str) (r : Re) (k : RSt → Option RSt) (s : RSt)
    (h : ∀ d, s.rest[1]? = some d → ¬ (d = b ∨ d.toUpper = b)) : go (ilits (a :: b :: cs) r) k s = none := by
  simp only [ilits]
  rw [go_seq]
  cases hs : s.rest with
  | nil => simp only [go, hs]
  | cons c t =>
    simp only [go, hs]
    split_ifs with h1
    · cases t with
      | nil => simp [Model.Regex.St.next]
      | cons d t =>
        have := h d (by rw [hs]; rfl)
        simp only [Model.Regex.St.next]
        rw [if_neg]
        simpa using this
    · rfl

/-- Nothing matches further on: a repetition with `k` behind it fails. -/
theorem more_none (p : Char → Bool) (k : RSt → Option RSt) : ∀ (n : Nat) (s : RSt),
    (∀ a r, s.rest = a ++ r → k (adv s a r) = none) → more (go (.cls p)) k n s = none := by
  intro n
  induction n with
  | zero =>
    intro s h
    have := h [] s.rest rfl
    rw [adv_nil] at this
    exact this
  | succ n ih =>
    intro s h
    have h0 := h [] s.rest rfl
    rw [adv_nil] at h0
    simp only [more]
    rw [h0, Option.or_none]
    cases hs : s.rest with
    | nil => simp only [go, hs]
    | cons c t =>
      simp only [go, hs]
      split_ifs with h1 h2
      · apply ih
        intro a r hr
        have := h (c :: a) r (by rw [hs]; simp only [Model.Regex.St.next] at hr; rw [hr]; rfl)
        rw [next_adv s c, Lemmas.Regex.adv_adv]
        exact this
      · rfl
      · rfl

/-- A greedy run goes back to the last place where the rest matches. -/
theorem star_back (p : Char → Bool) (k : RSt → Option RSt) (s : RSt) (a : Str) (d : Char) (b : Str) (hs : s.rest = a ++ d :: b) (ha : ∀ c ∈ a, p c = true)
    (x : RSt) (hk : k (adv s a (d :: b)) = some x) (hn : ∀ u r, b = u ++ r → k (adv s (a ++ d :: u) r) = none) : go (.star (.cls p)) k s = some x := by
  have e : go (.star (.cls p)) k s = more (go (.cls p)) k s.rest.length s := rfl
  rw [e]
  refine star_cls p k a (d :: b) ha _ s hs (by rw [hs]; simp) x ?_
  have hl : s.rest.length - a.length = b.length + 1 := by rw [hs]; simp
  rw [hl]
  simp only [more]
  rw [hk]
  have : go (.cls p) (fun t => if t.rest.length < (adv s a (d :: b)).rest.length then more (go (.cls p)) k b.length t else none) (adv s a (d :: b)) = none := by
    have hr : (adv s a (d :: b)).rest = d :: b := rfl
    simp only [go, hr]
    split_ifs with h1 h2
    · apply more_none
      intro u r hu
      have := hn u r hu
      rw [next_adv (adv s a (d :: b)) d, Lemmas.Regex.adv_adv, Lemmas.Regex.adv_adv]
      simpa using this
    · rfl
    · rfl
  rw [this]
  rfl

theorem valueChar_iff (w : WordClass) (c : Char) : valueChar w c = true ↔ ValueChar w c := by
  unfold valueChar ValueChar
  simp [or_assoc]

theorem numChar_iff (c : Char) : numChar c = true ↔ NumChar c := by
  unfold numChar NumChar
  simp [or_assoc]

theorem value_not (w : WordClass) {c : Char} (h : isSpace c = true ∨ c = '=') : valueChar w c = false := by
  by_contra hv
  rw [Bool.not_eq_false, valueChar_iff] at hv
  rcases hv with hv | hv
  · have := w.not c hv
    rcases h with h | rfl
    · rw [this.1] at h; exact absurd h (by decide)
    · exact absurd this.2 (by decide)
  · have hx : c ∈ ['(', ')', '*', '+', ',', '-', '.', '/', '°'] := hv
    simp only [List.mem_cons, List.not_mem_nil, or_false] at hx
    rcases h with h | rfl
    · rcases hx with rfl | rfl | rfl | rfl | rfl | rfl | rfl | rfl | rfl <;> exact absurd h (by decide)
    · revert hx; decide

theorem blank_space {a : Str} (h : Blank a) : ∀ c ∈ a, isSpace c = true := by
  intro c hc
  rcases h c hc with rfl | rfl <;> decide

/-- The expression from the equal sign on. -/
def tailRe (w : WordClass) : Re := .seq (lit '=') (.seq (.grp .value (plus (.cls (valueChar w)))) (opt (.alt fromRe atRe)))

theorem go_lit (c : Char) (k : RSt → Option RSt) (s : RSt) (r : Str) (h : s.rest = c :: r) : go (lit c) k s = k (adv s [c] r) := by
  unfold lit
  simp only [go, h]
  rw [if_pos (by simp), next_adv s c]

theorem lit_none (c : Char) (k : RSt → Option RSt) (s : RSt) (h : ∀ d, s.rest.head? = some d → d ≠ c) : go (lit c) k s = none := by
  unfold lit
  cases hs : s.rest with
  | nil => simp only [go, hs]
  | cons d r =>
    simp only [go, hs]
    rw [if_neg]
    have := h d (by rw [hs]; rfl)
    simpa using this

theorem close_adv (g : G) (s : RSt) (a r : Str) (h : s.rest = a ++ r) :
    Model.Regex.St.close g s (adv s a r) = ⟨s.pos + a.length, r, (g, s.pos, a) :: s.caps⟩ := by
  unfold Model.Regex.St.close
  simp [adv, h]

theorem space_toUpper (c : Char) : isSpace c.toUpper = isSpace c := by
  by_cases h : c.toNat < 128
  · exact Lemmas.PyStr.ascii_ind (P := fun c => isSpace c.toUpper = isSpace c) (by decide +kernel) c h
  · rw [Lemmas.PyStr.toUpper_big c (by omega)]

theorem space_upper {d : Char} (h : isSpace d = true) (b : Char) (hb : b = 'F' ∨ b = 'A') : ¬ (d = b ∨ d.toUpper = b) := by
  have hb' : isSpace b = false := by rcases hb with rfl | rfl <;> decide
  rintro (rfl | e)
  · rw [h] at hb'; exact absurd hb' (by decide)
  · rw [← e, space_toUpper, h] at hb'; exact absurd hb' (by decide)

theorem num_space {c : Char} (h : isSpace c = true) : numChar c = false := by
  by_contra hv
  rw [Bool.not_eq_false, numChar_iff] at hv
  rcases hv with hv | hv
  · have := (Lemmas.PyStr.digit_props c hv).1
    rw [h] at this; cases this
  · have hx : c ∈ ['.', 'E', 'e', '+', '-'] := hv
    simp only [List.mem_cons, List.not_mem_nil, or_false] at hx
    rcases hx with rfl | rfl | rfl | rfl | rfl <;> exact absurd h (by decide)

/-- The captures of a window. -/
inductive Caps : Window → List (G × Nat × Str) → List (G × Nat × Str) → Prop
  | plain (c : List (G × Nat × Str)) : Caps .plain c c
  | interval (f a t b : Str) (i j : Nat) (c : List (G × Nat × Str)) : Caps (.interval f a t b) c ((.formula2, i, b) :: (.formula1, j, a) :: c)
  | point (k a : Str) (i : Nat) (c : List (G × Nat × Str)) : Caps (.point k a) c ((.formula3, i, a) :: c)

theorem window_ok (win : Window) (h : win.Ok) (z : Str) (hz : ∀ c ∈ z, isSpace c = true) (s : RSt) (hs : s.rest = win.text ++ z) :
    ∃ x : RSt, go (opt (.alt fromRe atRe)) some s = some x ∧ Caps win s.caps x.caps := by
  unfold opt
  rw [go_alt, go_alt]
  have hzh : ∀ c, z.head? = some c → isSpace c = true := fun c hc => hz c (List.mem_of_mem_head? hc)
  cases win with
  | plain =>
    have hs' : s.rest = z := by simpa [Window.text] using hs
    have hd : ∀ d, s.rest[1]? = some d → isSpace d = true := by
      intro d hd
      rw [hs'] at hd
      exact hz d (List.mem_of_getElem? hd)
    have e1 : go fromRe some s = none := ilits_none ' ' 'F' "ROM ".toList _ _ s (fun d hx => space_upper (hd d hx) 'F' (.inl rfl))
    have e2 : go atRe some s = none := ilits_none ' ' 'A' "T ".toList _ _ s (fun d hx => space_upper (hd d hx) 'A' (.inr rfl))
    rw [e1, e2]
    exact ⟨s, rfl, .plain _⟩
  | interval f a t b =>
    obtain ⟨hf, ⟨ha0, ha⟩, ht, ⟨hb0, hb⟩⟩ := h
    let r3 : Str := b ++ z
    let r2 : Str := (' ' :: t ++ [' ']) ++ r3
    let r1 : Str := a ++ r2
    let s1 := adv s (' ' :: f ++ [' ']) r1
    let s2 := Model.Regex.St.close .formula1 s1 (adv s1 a r2)
    let s3 := adv s2 (' ' :: t ++ [' ']) r3
    let s4 := Model.Regex.St.close .formula2 s3 (adv s3 b z)
    have e1 : go fromRe some s = some s4 := by
      unfold fromRe
      rw [go_ilits _ _ _ (' ' :: f ++ [' ']) s r1 (by
        have : (' ' :: f ++ [' ']).map Char.toUpper = ' ' :: (Model.PyStr.upper f) ++ [' '] := by unfold Model.PyStr.upper; rw [List.map_append]; rfl
        rw [this, hf]; rfl) (by rw [hs]; simp [Window.text, r1, r2, r3])]
      rw [go_seq, go_grp]
      refine go_star _ _ s1 a r2 rfl (fun c hc => (numChar_iff c).mpr (ha c hc)) (by intro c hc; simp [r2] at hc; subst hc; decide) _ ?_
      show go _ _ s2 = _
      rw [go_ilits _ _ _ (' ' :: t ++ [' ']) s2 r3 (by
        have : (' ' :: t ++ [' ']).map Char.toUpper = ' ' :: (Model.PyStr.upper t) ++ [' '] := by unfold Model.PyStr.upper; rw [List.map_append]; rfl
        rw [this, ht]; rfl) rfl]
      rw [go_grp]
      exact go_star _ _ s3 b z rfl (fun c hc => (numChar_iff c).mpr (hb c hc)) (fun c hc => num_space (hzh c hc)) _ rfl
    rw [e1]
    refine ⟨s4, rfl, ?_⟩
    have e3 : s4.caps = (.formula2, s3.pos, b) :: s3.caps := by
      show (Model.Regex.St.close .formula2 s3 (adv s3 b z)).caps = _
      rw [close_adv _ _ _ _ rfl]
    have e4 : s3.caps = (.formula1, s1.pos, a) :: s.caps := by
      show (Model.Regex.St.close .formula1 s1 (adv s1 a r2)).caps = _
      rw [close_adv _ _ _ _ rfl]
      rfl
    rw [e3, e4]
    exact .interval _ _ _ _ _ _ _
  | point k a =>
    obtain ⟨hk, ⟨ha0, ha⟩⟩ := h
    have hk2 : ∃ c cs, k = c :: cs ∧ c.toUpper = 'A' := by
      cases k with
      | nil => exact absurd hk (by decide)
      | cons c cs => exact ⟨c, cs, rfl, by unfold Model.PyStr.upper at hk; exact (List.cons.inj hk).1⟩
    have e1 : go fromRe some s = none := by
      refine ilits_none ' ' 'F' "ROM ".toList _ _ s ?_
      intro d hd
      obtain ⟨c, cs, rfl, hc⟩ := hk2
      rw [hs] at hd
      simp [Window.text] at hd
      subst hd
      rintro (rfl | h)
      · exact absurd hc (by decide)
      · rw [h] at hc; exact absurd hc (by decide)
    let r1 : Str := a ++ z
    let s1 := adv s (' ' :: k ++ [' ']) r1
    let s2 := Model.Regex.St.close .formula3 s1 (adv s1 a z)
    have e2 : go atRe some s = some s2 := by
      unfold atRe
      rw [go_ilits _ _ _ (' ' :: k ++ [' ']) s r1 (by
        have : (' ' :: k ++ [' ']).map Char.toUpper = ' ' :: (Model.PyStr.upper k) ++ [' '] := by unfold Model.PyStr.upper; rw [List.map_append]; rfl
        rw [this, hk]; rfl) (by rw [hs]; simp [Window.text, r1])]
      rw [go_grp]
      exact go_star _ _ s1 a z rfl (fun c hc => (numChar_iff c).mpr (ha c hc)) (fun c hc => num_space (hzh c hc)) _ rfl
    rw [e1, e2]
    refine ⟨s2, rfl, ?_⟩
    have e3 : s2.caps = (.formula3, s1.pos, a) :: s.caps := by
      show (Model.Regex.St.close .formula3 s1 (adv s1 a z)).caps = _
      rw [close_adv _ _ _ _ rfl]
      rfl
    rw [e3]
    exact .point _ _ _ _

theorem tail_ok (w : WordClass) (value : Str) (hv : value ≠ [] ∧ ∀ c ∈ value, ValueChar w c) (win : Window) (h : win.Ok) (z : Str)
    (hz : ∀ c ∈ z, isSpace c = true) (s : RSt) (hs : s.rest = '=' :: (value ++ (win.text ++ z))) :
    ∃ (x : RSt) (i : Nat), go (tailRe w) some s = some x ∧ Caps win ((.value, i, value) :: s.caps) x.caps := by
  let r1 : Str := win.text ++ z
  let s1 := adv s ['='] (value ++ r1)
  let s2 := Model.Regex.St.close .value s1 (adv s1 value r1)
  have hs2 : s2 = ⟨s1.pos + value.length, r1, (.value, s1.pos, value) :: s1.caps⟩ := close_adv _ _ _ _ rfl
  obtain ⟨x, hx, hc⟩ := window_ok win h z hz s2 (by rw [hs2])
  refine ⟨x, s1.pos, ?_, ?_⟩
  · unfold tailRe
    rw [go_seq, go_lit '=' _ s (value ++ r1) hs, go_seq, go_grp]
    refine go_plus _ _ s1 value r1 hv.1 rfl (fun c hc => (valueChar_iff w c).mpr (hv.2 c hc)) ?_ x hx
    intro c hc
    apply value_not
    left
    cases win with
    | plain => exact hz c (List.mem_of_mem_head? (by simpa [r1, Window.text] using hc))
    | interval f a t b => simp [r1, Window.text] at hc; subst hc; decide
    | point k a => simp [r1, Window.text] at hc; subst hc; decide
  · rw [hs2] at hc
    exact hc

theorem tail_none (w : WordClass) (s : RSt) (h : ∀ d, s.rest.head? = some d → d ≠ '=') : go (tailRe w) some s = none := by
  unfold tailRe
  rw [go_seq]
  exact lit_none '=' _ s h

theorem window_noeq (win : Window) (h : win.Ok) : '=' ∉ win.text := by
  have hu : ∀ (k u : Str), Model.PyStr.upper k = u → '=' ∉ u → '=' ∉ k := by
    intro k u e hn hc
    apply hn
    rw [← e]
    unfold Model.PyStr.upper
    exact List.mem_map.mpr ⟨'=', hc, by decide⟩
  have hn : ∀ a : Str, (∀ c ∈ a, NumChar c) → '=' ∉ a := fun a ha hc => absurd (ha _ hc) (by unfold NumChar; decide)
  cases win with
  | plain => simp [Window.text]
  | interval f a t b =>
    obtain ⟨hf, ⟨_, ha⟩, ht, ⟨_, hb⟩⟩ := h
    have h1 := hu f _ hf (by decide)
    have h2 := hu t _ ht (by decide)
    have h3 := hn a ha
    have h4 := hn b hb
    simp [Window.text, h1, h2, h3, h4]
  | point k a =>
    obtain ⟨hk, ⟨_, ha⟩⟩ := h
    have h1 := hu k _ hk (by decide)
    have h3 := hn a ha
    simp [Window.text, h1, h3]

/-- A measurement is recognised. -/
theorem exec_meas (w : WordClass) (m : Measure) (h : m.Ok w) : ∃ (x : RSt) (i : Nat), exec (measRe w) (m.text ++ ['\n']) = some x ∧
    Caps m.window [(.value, i, m.value), (.designator, 0, m.name)] x.caps := by
  obtain ⟨hname, hexpr, hvalue, hwin, htrail, _⟩ := h
  let z : Str := m.trail ++ ['\n']
  have hz : ∀ c ∈ z, isSpace c = true := by
    intro c hc
    rcases List.mem_append.mp hc with hc | hc
    · exact blank_space htrail c hc
    · simp at hc; subst hc; decide
  let rt : Str := m.value ++ (m.window.text ++ z)
  let r1 : Str := m.head ++ '=' :: rt
  let s0 : RSt := ⟨0, m.name ++ r1, []⟩
  let s1 := Model.Regex.St.close .designator s0 (adv s0 m.name r1)
  have hs1 : s1 = ⟨0 + m.name.length, r1, [(.designator, 0, m.name)]⟩ := close_adv _ _ _ _ rfl
  have htext : m.text ++ ['\n'] = m.name ++ r1 := by simp [Measure.text, r1, rt, z]
  have hnoeq : '=' ∉ rt := by
    intro hc
    rcases List.mem_append.mp hc with hc | hc
    · have := value_not w (c := '=') (.inr rfl)
      rw [(valueChar_iff w '=').mpr (hvalue.2 _ hc)] at this
      exact absurd this (by decide)
    · rcases List.mem_append.mp hc with hc | hc
      · exact window_noeq _ hwin hc
      · exact absurd (hz _ hc) (by decide)
  have main : ∃ (x : RSt) (i : Nat), go (opt (.seq (lit ':') (.seq (plus sp) (.star dot)))) (go (tailRe w) some) s1 = some x ∧
      Caps m.window [(.value, i, m.value), (.designator, 0, m.name)] x.caps := by
    unfold opt
    rw [go_alt]
    cases he : m.expr with
    | none =>
      have hh : m.head = [] := by simp [Measure.head, he]
      have hr : s1.rest = '=' :: rt := by rw [hs1]; simp [r1, hh]
      have e1 : go (.seq (lit ':') (.seq (plus sp) (.star dot))) (go (tailRe w) some) s1 = none := by
        rw [go_seq]
        apply lit_none
        intro d hd
        rw [hr] at hd
        simp at hd
        subst hd; decide
      rw [e1]
      obtain ⟨x, i, hx, hc⟩ := tail_ok w m.value hvalue m.window hwin z hz s1 hr
      refine ⟨x, i, ?_, ?_⟩
      · exact hx
      · rw [hs1] at hc; exact hc
    | some e =>
      obtain ⟨⟨hb0, hb⟩, hline⟩ := hexpr e he
      have hh : m.head = ':' :: e.1 ++ e.2 := by simp [Measure.head, he]
      -- the blanks of the expression belong to the run of blanks
      let b2 := e.2.takeWhile isSpace
      let e2 := e.2.dropWhile isSpace
      have hsplit : e.2 = b2 ++ e2 := (List.takeWhile_append_dropWhile).symm
      have hr : s1.rest = ':' :: ((e.1 ++ b2) ++ (e2 ++ '=' :: rt)) := by
        rw [hs1]; simp only [r1, hh]; rw [hsplit]; simp
      let s2 := adv s1 [':'] ((e.1 ++ b2) ++ (e2 ++ '=' :: rt))
      let s3 := adv s2 (e.1 ++ b2) (e2 ++ '=' :: rt)
      let s4 := adv s3 e2 ('=' :: rt)
      obtain ⟨x, i, hx, hc⟩ := tail_ok w m.value hvalue m.window hwin z hz s4 rfl
      have e1 : go (.seq (lit ':') (.seq (plus sp) (.star dot))) (go (tailRe w) some) s1 = some x := by
        rw [go_seq, go_lit ':' _ s1 _ hr, go_seq]
        refine go_plus _ _ s2 (e.1 ++ b2) (e2 ++ '=' :: rt) (by simp [hb0]) rfl ?_ ?_ x ?_
        · intro c hc
          rcases List.mem_append.mp hc with hc | hc
          · exact blank_space hb c hc
          · exact List.mem_takeWhile_imp hc
        · intro c hc
          cases hd : e2 with
          | nil => rw [hd] at hc; simp at hc; subst hc; decide
          | cons d ds =>
            rw [hd] at hc; simp at hc; subst hc
            have h2 := List.head?_dropWhile_not isSpace e.2
            rw [show e.2.dropWhile isSpace = d :: ds from hd] at h2
            simpa using h2
        · refine star_back _ _ s3 e2 '=' rt rfl ?_ x hx ?_
          · intro c hc
            have : c ∈ e.2 := (List.dropWhile_sublist _).subset hc
            simpa using (hline c this).1
          · intro u r hu
            apply tail_none
            intro d hd
            have hd' : r.head? = some d := hd
            intro hq
            subst hq
            apply hnoeq
            rw [hu]
            exact List.mem_append_right _ (List.mem_of_mem_head? hd')
      rw [e1]
      refine ⟨x, i, rfl, ?_⟩
      have : s4.caps = s1.caps := rfl
      rw [this, hs1] at hc
      exact hc
  obtain ⟨x, i, hx, hc⟩ := main
  refine ⟨x, i, ?_, hc⟩
  rw [htext]
  unfold exec measRe
  rw [go_seq, go_grp]
  refine go_plus _ _ s0 m.name r1 hname.1 rfl hname.2 ?_ x ?_
  · intro c hcc
    have : c = ':' ∨ c = '=' := by
      cases he : m.expr with
      | none => simp [r1, Measure.head, he] at hcc; exact .inr hcc.symm
      | some e => simp [r1, Measure.head, he] at hcc; exact .inl hcc.symm
    by_contra hw
    rw [Bool.not_eq_false] at hw
    have := (w.not c hw).2
    rcases ‹c = ':' ∨ c = '='› with rfl | rfl <;> exact absurd this (by decide)
  · show go (.seq (opt (.seq (lit ':') (.seq (plus sp) (.star dot)))) (tailRe w)) some s1 = some x
    rw [go_seq]
    exact hx

theorem columns_meas (m : Measure) (w : WordClass) (h : m.Ok w) (x : RSt) (i : Nat) (hc : Caps m.window [(.value, i, m.value), (.designator, 0, m.name)] x.caps) :
    measColumns x = m.columns := by
  have hwin := h.window
  unfold measColumns Measure.columns
  cases hw : m.window with
  | plain =>
    rw [hw] at hc
    generalize hq : x.caps = q at hc
    cases hc
    have g1 : group x .designator = m.name := by unfold group Model.Regex.St.get; rw [hq]; rfl
    have g2 : group x .value = m.value := by unfold group Model.Regex.St.get; rw [hq]; rfl
    have g3 : group x .formula1 = [] := by unfold group Model.Regex.St.get; rw [hq]; rfl
    have g4 : group x .formula3 = [] := by unfold group Model.Regex.St.get; rw [hq]; rfl
    simp [g1, g2, g3, g4]
  | interval f a t b =>
    rw [hw] at hc hwin
    generalize hq : x.caps = q at hc
    cases hc
    have g1 : group x .designator = m.name := by unfold group Model.Regex.St.get; rw [hq]; rfl
    have g2 : group x .value = m.value := by unfold group Model.Regex.St.get; rw [hq]; rfl
    have g3 : group x .formula1 = a := by unfold group Model.Regex.St.get; rw [hq]; rfl
    have g4 : group x .formula2 = b := by unfold group Model.Regex.St.get; rw [hq]; rfl
    have ha : a ≠ [] := hwin.2.1.1
    simp only [g1, g2, g3, g4]
    rw [if_pos ha]
  | point k a =>
    rw [hw] at hc hwin
    generalize hq : x.caps = q at hc
    cases hc
    have g1 : group x .designator = m.name := by unfold group Model.Regex.St.get; rw [hq]; rfl
    have g2 : group x .value = m.value := by unfold group Model.Regex.St.get; rw [hq]; rfl
    have g3 : group x .formula1 = [] := by unfold group Model.Regex.St.get; rw [hq]; rfl
    have g4 : group x .formula3 = a := by unfold group Model.Regex.St.get; rw [hq]; rfl
    have ha : a ≠ [] := hwin.2.1
    simp only [g1, g2, g3, g4]
    rw [if_neg (by simp), if_pos ha]

/-- A line that does not look like a measurement is none. -/
theorem exec_not (w : WordClass) (t : Str) (h : ¬ Looks w t) : exec (measRe w) t = none := by
  unfold exec
  apply go_none
  intro u hu
  exfalso
  apply h
  unfold measRe at hu
  cases hu with
  | seq h1 h2 =>
    cases h1 with
    | grp h1 =>
      obtain ⟨n, hn0, hn1, hn2, _⟩ := run_plus_cls h1
      cases h2 with
      | seq h3 h4 =>
        have hv : ∀ a b : RSt, Run (.seq (lit '=') (.seq (.grp .value (plus (.cls (valueChar w)))) (opt (.alt fromRe atRe)))) a b →
            ∃ v r : Str, a.rest = '=' :: v ++ r ∧ v ≠ [] ∧ ∀ c ∈ v, ValueChar w c := by
          intro a b hab
          cases hab with
          | seq k1 k2 =>
            unfold lit at k1
            cases k1 with
            | @cls _ _ c r hr hp =>
              have hc : c = '=' := by simpa using hp
              subst hc
              cases k2 with
              | seq k3 _ =>
                cases k3 with
                | grp k3 =>
                  obtain ⟨v, v0, v1, v2, _⟩ := run_plus_cls k3
                  exact ⟨v, _, by rw [hr]; have := v1.text; simp only [Model.Regex.St.next] at this; rw [this]; rfl, v0, fun c hc => (valueChar_iff w c).mp (v2 c hc)⟩
        obtain ⟨v, r, hvr, v0, v1⟩ := hv _ _ h4
        have ht := hn1.text
        unfold opt at h3
        cases h3 with
        | right h3 =>
          cases h3
          refine ⟨n, [], v, r, ?_, ⟨hn0, hn2⟩, ⟨v0, v1⟩, .inl rfl⟩
          have e : (_ : RSt).rest = '=' :: v ++ r := hvr
          simp only [Model.Regex.St.close] at e
          rw [List.append_nil, List.append_assoc, ← e]
          exact ht
        | left h3 =>
          cases h3 with
          | seq k1 k2 =>
            unfold lit at k1
            cases k1 with
            | @cls _ _ c r2 hr hp =>
              have hc : c = ':' := by simpa using hp
              subst hc
              cases k2 with
              | seq k3 k4 =>
                obtain ⟨b, b0, b1, b2, _⟩ := run_plus_cls k3
                obtain ⟨e, e1, _, _⟩ := run_star_cls k4
                refine ⟨n, ':' :: b ++ e, v, r, ?_, ⟨hn0, hn2⟩, ⟨v0, v1⟩, .inr ⟨b, e, rfl, b0, b2⟩⟩
                have hb := b1.text
                have he := e1.text
                simp only [Model.Regex.St.next, Model.Regex.St.close] at hb hr
                have ht' : t = n ++ _ := ht
                rw [ht', hr, hb, he, hvr]
                simp

/-! ### Lines -/

theorem stripEol_clean (s : Str) (h : OneLine s) : stripEol s = s := by
  have hd : ∀ t : Str, OneLine t → t.dropWhile (fun c => c = '\r' || c = '\n') = t := by
    intro t ht
    apply Lemmas.PyStr.dropWhile_none
    intro c hc
    simp [ht c hc]
  unfold stripEol
  rw [hd s h, hd s.reverse (fun c hc => h c (by simpa using hc)), List.reverse_reverse]

theorem stripEol_line (s : Str) (h : OneLine s) : stripEol (s ++ ['\n']) = s := by
  cases s with
  | nil => rfl
  | cons c t =>
    have h0 := h c (by simp)
    unfold stripEol
    rw [List.cons_append, Lemmas.PyStr.dropWhile_head _ _ _ (by simp [h0])]
    rw [← List.cons_append, List.reverse_append, List.reverse_singleton, List.singleton_append, List.dropWhile_cons, if_pos (by simp),
      Lemmas.PyStr.dropWhile_none _ _ (by intro d hd; have := h d (List.mem_reverse.mp hd); simp [this]), List.reverse_reverse]

theorem strip_ne (s : Str) (c : Char) (hc : c ∈ s) (h : isSpace c = false) : strip s ≠ [] := by
  unfold strip Model.PyStr.lstrip Model.PyStr.rstrip
  intro e
  have e1 : (s.dropWhile isSpace).reverse.dropWhile isSpace = [] := by simpa using e
  rw [List.dropWhile_eq_nil_iff] at e1
  have e2 : s.dropWhile isSpace = [] := by
    cases hd : s.dropWhile isSpace with
    | nil => rfl
    | cons d ds =>
      have h1 := e1 d (by rw [hd]; simp)
      have h2 := List.head?_dropWhile_not isSpace s
      rw [hd] at h2
      simp at h2
      rw [h1] at h2; exact absurd h2 (by decide)
  rw [List.dropWhile_eq_nil_iff] at e2
  rw [e2 c hc] at h
  exact absurd h (by decide)

theorem looks_eq {w : WordClass} {t : Str} (h : Looks w t) : '=' ∈ t := by
  obtain ⟨n, hd, v, r, rfl, _⟩ := h
  simp

theorem looks_line {w : WordClass} {t : Str} (h : Looks w (t ++ ['\n'])) : Looks w t := by
  obtain ⟨n, hd, v, r, e, hn, hv, hh⟩ := h
  rcases List.eq_nil_or_concat r with rfl | ⟨r', c, rfl⟩
  · exfalso
    have h1 := congrArg List.getLast? e
    rw [List.getLast?_concat, List.append_nil, List.getLast?_append_cons, List.getLast?_cons_of_ne_nil hv.1] at h1
    have h2 := hv.2 '\n' (List.mem_of_getLast? h1.symm)
    rw [← valueChar_iff, value_not w (.inl (by decide))] at h2
    exact absurd h2 (by decide)
  · rw [List.concat_eq_append, ← List.append_assoc] at e
    exact ⟨n, hd, v, r', (List.append_inj' e rfl).1, hn, hv, hh⟩

theorem not_looks (w : WordClass) (a : Str) (c : Char) (b : Str) (ha : ∀ d ∈ a, w.word d = true) (hc : w.word c = false) (h1 : c ≠ ':') (h2 : c ≠ '=') :
    ¬ Looks w (a ++ c :: b) := by
  rintro ⟨n, hd, v, r, e, hn, _, hh⟩
  have t1 : (a ++ c :: b).takeWhile w.word = a := by
    rw [List.takeWhile_append_of_pos ha, List.takeWhile_cons_of_neg (by simp [hc]), List.append_nil]
  have key : ∃ (d : Char) (q : Str), n ++ hd ++ '=' :: v ++ r = n ++ d :: q ∧ (d = ':' ∨ d = '=') := by
    rcases hh with rfl | ⟨x, y, rfl, _⟩
    · exact ⟨'=', v ++ r, by simp, .inr rfl⟩
    · exact ⟨':', x ++ y ++ '=' :: v ++ r, by simp, .inl rfl⟩
  obtain ⟨d, q, e2, hd2⟩ := key
  have hdw : w.word d = false := by
    by_contra hw
    rw [Bool.not_eq_false] at hw
    have := (w.not d hw).2
    rcases hd2 with rfl | rfl <;> exact absurd this (by decide)
  have t2 : (n ++ d :: q).takeWhile w.word = n := by
    rw [List.takeWhile_append_of_pos hn.2, List.takeWhile_cons_of_neg (by simp [hdw]), List.append_nil]
  rw [e2] at e
  rw [e, t2] at t1
  subst t1
  have := List.append_cancel_left e
  injection this with e3
  subst e3
  rcases hd2 with rfl | rfl
  · exact h1 rfl
  · exact h2 rfl

variable {V F : Type}

theorem finish_not (w : WordClass) (conv : Str → V) (s : St V F) (t : Str) (h : ¬ Looks w t) : finish w conv s t = s := by
  unfold finish Model.LogFile.measure
  rw [exec_not w t h]
  split_ifs <;> rfl

theorem finish_not' (w : WordClass) (conv : Str → V) (s : St V F) (t : Str) (h : ¬ Looks w t) : finish w conv s (t ++ ['\n']) = s :=
  finish_not w conv s _ (fun hl => h (looks_line hl))

theorem lines_next (n : Numbers F) (w : WordClass) (conv : Str → V) (l : Str) (ls : List Str) (s s' : St V F) (h : line n w conv s l = .ok (some s')) :
    lines n w conv (l :: ls) s = lines n w conv ls s' := by
  conv_lhs => unfold lines
  rw [h]

theorem line_normal (n : Numbers F) (w : WordClass) (conv : Str → V) (s : St V F) (l : Str) (h : s.mode = .normal) : line n w conv s l = normalLine n w conv s l := by
  unfold line
  rw [h]

theorem prefix_line {k t : Str} (hk : '\n' ∉ k) (h : k <+: t ++ ['\n']) : k <+: t := by
  rw [List.prefix_concat_iff] at h
  rcases h with rfl | h
  · simp at hk
  · exact h

theorem starts_false {k t : Str} (h : ¬ k <+: t) : starts k t = false := by
  unfold starts
  rw [Bool.eq_false_iff]
  intro hc
  exact h (List.isPrefixOf_iff_prefix.mp hc)

/-- A line with none of the keywords only goes to the expression of the measurements. -/
theorem plain_line (n : Numbers F) (w : WordClass) (conv : Str → V) (s : St V F) (t : Str) (hm : s.mode = .normal) (h : ∀ k ∈ keywords, ¬ k <+: t) :
    line n w conv s (t ++ ['\n']) = .ok (some (finish w conv s (t ++ ['\n']))) := by
  have hk : ∀ k ∈ keywords, starts k (t ++ ['\n']) = false := by
    intro k hk
    have hn : '\n' ∉ k := by revert k; decide
    exact starts_false (fun hp => h k hk (prefix_line hn hp))
  rw [line_normal _ _ _ _ _ hm]
  unfold normalLine
  rw [hk "N-Period".toList (by decide), hk "Fourier components of".toList (by decide), hk "DC component:".toList (by decide), hk "Harmonic".toList (by decide),
    hk ".step".toList (by decide), hk "Measurement:".toList (by decide)]
  by_cases he : strip (t ++ ['\n']) = []
  · rw [if_pos he]
  · rw [if_neg he]; rfl

theorem line_other (n : Numbers F) (w : WordClass) (conv : Str → V) (s : St V F) (t : Str) (hm : s.mode = .normal) (h : Other w t) :
    line n w conv s (t ++ ['\n']) = .ok (some s) := by
  rw [plain_line n w conv s t hm h.keyword, finish_not' w conv s t h.plain]

/-- The name of a measurement is no keyword. -/
theorem measure_keyword (w : WordClass) (m : Measure) (h : m.Ok w) : ∀ k ∈ keywords, ¬ k <+: m.text := by
  obtain ⟨hname, hexpr, hvalue, hwin, htrail, hk1, hk2⟩ := h
  have key : ∃ (d : Char) (q : Str), m.text = m.name ++ d :: q ∧ (d = ':' ∨ d = '=') := by
    unfold Measure.text Measure.head
    cases he : m.expr with
    | none => exact ⟨'=', m.value ++ m.window.text ++ m.trail, by simp, .inr rfl⟩
    | some e => exact ⟨':', e.1 ++ e.2 ++ '=' :: m.value ++ m.window.text ++ m.trail, by simp, .inl rfl⟩
  obtain ⟨d, q, e, hd⟩ := key
  rw [e]
  have main : ∀ k : Str, k <+: m.name ++ d :: q → k <+: m.name ∨ ∃ k', k = m.name ++ d :: k' := by
    intro k hk
    obtain ⟨r, hr⟩ := hk
    rcases List.append_eq_append_iff.mp hr with ⟨a, h1, _⟩ | ⟨a, h1, h2⟩
    · exact .inl ⟨a, h1.symm⟩
    · cases a with
      | nil => exact .inl (by rw [h1, List.append_nil]; exact List.prefix_refl _)
      | cons x a =>
        rw [List.cons_append] at h2
        injection h2 with h3 h4
        subst h3
        exact .inr ⟨a, h1⟩
  have nw : ∀ c : Char, isSpace c = true ∨ c ∈ [':', '=', '-', '.'] → w.word c = false := by
    intro c hc
    by_contra hw
    rw [Bool.not_eq_false] at hw
    have := w.not c hw
    rcases hc with hc | hc
    · rw [this.1] at hc; exact absurd hc (by decide)
    · simp only [List.mem_cons, List.not_mem_nil, or_false] at hc
      rcases hc with rfl | rfl | rfl | rfl <;> exact absurd this.2 (by decide)
  have bad : ∀ (k : Str) (c : Char), c ∈ k → w.word c = false → ':' ∉ k → '=' ∉ k → ¬ k <+: m.name ++ d :: q := by
    intro k c hc hw h1 h2 hp
    rcases main k hp with hp | ⟨k', hp⟩
    · have := hname.2 c (hp.subset hc)
      rw [hw] at this; exact absurd this (by decide)
    · rcases hd with rfl | rfl
      · exact h1 (by rw [hp]; simp)
      · exact h2 (by rw [hp]; simp)
  intro k hk
  simp only [keywords, List.mem_cons, List.not_mem_nil, or_false] at hk
  rcases hk with rfl | rfl | rfl | rfl | rfl | rfl
  · exact bad _ '-' (by decide) (nw _ (by decide)) (by decide) (by decide)
  · exact bad _ ' ' (by decide) (nw _ (by decide)) (by decide) (by decide)
  · intro hp
    rcases main _ hp with hp | ⟨k', hp⟩
    · have := hname.2 ' ' (hp.subset (by decide))
      rw [nw ' ' (by decide)] at this; exact absurd this (by decide)
    · have hs : ' ' ∈ m.name := by
        rcases hd with rfl | rfl
        · -- the only colon is the last character
          by_contra hn
          cases hmn : m.name with
          | nil => exact hname.1 hmn
          | cons x xs =>
            rw [hmn] at hp
            have hx : x = 'D' := by injection hp with h1 _; exact h1.symm
            have hp2 : "C component:".toList = xs ++ ':' :: k' := by injection hp
            cases hxs : xs with
            | nil => rw [hxs] at hp2; exact absurd hp2 (by simp)
            | cons y ys =>
              rw [hxs] at hp2
              have hy : y = 'C' := by injection hp2 with h1 _; exact h1.symm
              have hp3 : " component:".toList = ys ++ ':' :: k' := by injection hp2
              cases hys : ys with
              | nil => rw [hys] at hp3; exact absurd hp3 (by simp)
              | cons z zs =>
                rw [hys] at hp3
                have hz : z = ' ' := by injection hp3 with h1 _; exact h1.symm
                exact hn (by rw [hmn, hxs, hys, hz]; simp)
        · exact absurd (show '=' ∈ "DC component:".toList by rw [hp]; simp) (by decide)
      have := hname.2 ' ' hs
      rw [nw ' ' (by decide)] at this; exact absurd this (by decide)
  · intro hp
    rcases main _ hp with hp | ⟨k', hp⟩
    · exact hk1 hp
    · rcases hd with rfl | rfl
      · exact absurd (show ':' ∈ "Harmonic".toList by rw [hp]; simp) (by decide)
      · exact absurd (show '=' ∈ "Harmonic".toList by rw [hp]; simp) (by decide)
  · exact bad _ '.' (by decide) (nw _ (by decide)) (by decide) (by decide)
  · intro hp
    rcases main _ hp with hp | ⟨k', hp⟩
    · have := hname.2 ':' (hp.subset (by decide))
      rw [nw ':' (by decide)] at this; exact absurd this (by decide)
    · rcases hd with rfl | rfl
      · apply hk2
        have hlast : ':' ∉ m.name := fun hc => by
          have := hname.2 _ hc
          rw [nw ':' (by decide)] at this; exact absurd this (by decide)
        have t1 : ("Measurement:".toList : Str).takeWhile (fun c => c ≠ ':') = "Measurement".toList := by decide
        rw [hp, List.takeWhile_append_of_pos (by intro c hc; simp; rintro rfl; exact hlast hc), List.takeWhile_cons_of_neg (by simp), List.append_nil] at t1
        exact t1
      · exact absurd (show '=' ∈ "Measurement:".toList by rw [hp]; simp) (by decide)

/-- The columns written by measurements. -/
def putMeasures (conv : Str → V) (d : Dict (List V)) (cols : List (Str × Str)) : Dict (List V) := cols.foldl (fun d c => put (lower c.1) [conv c.2] d) d

theorem line_measure (n : Numbers F) (w : WordClass) (conv : Str → V) (s : St V F) (m : Measure) (hm : s.mode = .normal) (h : m.Ok w) :
    line n w conv s (m.text ++ ['\n']) = .ok (some (if s.steps.count = 0 then { s with dataset := putMeasures conv s.dataset m.columns } else s)) := by
  rw [plain_line n w conv s m.text hm (measure_keyword w m h)]
  obtain ⟨x, i, hx, hc⟩ := exec_meas w m h
  unfold finish Model.LogFile.measure
  rw [hx]
  simp only
  rw [columns_meas m w h x i hc]
  rfl

/-! ### Fourier tables -/

theorem words_lead (b s : Str) (h : ∀ c ∈ b, isSpace c = true) : words [] (b ++ s) = words [] s := by
  induction b with
  | nil => rfl
  | cons c b ih =>
    rw [List.cons_append]
    conv_lhs => unfold words
    rw [if_pos (h c (by simp)), if_pos rfl, ih (fun d hd => h d (by simp [hd]))]

theorem words_run (x s cur : Str) (h : ∀ c ∈ x, isSpace c = false) : words cur (x ++ s) = words (cur ++ x) s := by
  induction x generalizing cur with
  | nil => simp
  | cons c x ih =>
    rw [List.cons_append]
    conv_lhs => unfold words
    rw [if_neg (by rw [h c (by simp)]; decide), ih _ (fun d hd => h d (by simp [hd]))]
    simp

theorem words_word (x g s : Str) (hx : Word x) (hg : g ≠ [] ∧ Blank g) : words [] (x ++ (g ++ s)) = x :: words [] s := by
  rw [words_run x _ [] hx.2, List.nil_append]
  obtain ⟨c, g', rfl⟩ := List.exists_cons_of_ne_nil hg.1
  have hb := blank_space hg.2
  rw [List.cons_append]
  conv_lhs => unfold words
  rw [if_pos (hb c (by simp)), if_neg hx.1, words_lead g' s (fun d hd => hb d (by simp [hd]))]

theorem words_last (x g : Str) (hx : Word x) (hg : Blank g) : words [] (x ++ g) = [x] := by
  by_cases h : g = []
  · subst h
    rw [words_run x _ [] hx.2, List.nil_append]
    unfold words
    rw [if_neg hx.1]
  · have := words_word x g [] hx ⟨h, hg⟩
    rw [List.append_nil] at this
    rw [this]
    rfl

theorem degree_word (x : Str) (b : Bool) (hx : Word x) : Word (x ++ degree b) := by
  refine ⟨by simp [hx.1], ?_⟩
  intro c hc
  rcases List.mem_append.mp hc with hc | hc
  · exact hx.2 c hc
  · unfold degree at hc
    split_ifs at hc
    · simp at hc; subst hc; decide
    · simp at hc

theorem rstrip_degree (x : Str) (b : Bool) (hx : x.getLast? ≠ some '°') : Model.PyStr.rstripChar '°' (x ++ degree b) = x := by
  have h0 : Model.PyStr.rstripChar '°' x = x := by
    unfold Model.PyStr.rstripChar
    rw [show x.reverse.dropWhile (fun c => decide (c = '°')) = x.reverse by
      cases h : x.reverse with
      | nil => rfl
      | cons c t =>
        rw [Lemmas.PyStr.dropWhile_head]
        have : x.getLast? = some c := by rw [← List.head?_reverse, h]; rfl
        rw [this] at hx
        simpa using hx, List.reverse_reverse]
  unfold degree
  cases b with
  | false => simpa using h0
  | true =>
    unfold Model.PyStr.rstripChar
    rw [if_pos rfl, List.reverse_append, List.reverse_singleton, List.singleton_append, List.dropWhile_cons, if_pos (by simp)]
    exact h0

theorem need_ok {A : Type} (f : Str → Option A) (ts : List Str) (i : Nat) (t : Str) (x : A) (h1 : ts[i]? = some t) (h2 : f t = some x) : need f ts i = .ok x := by
  unfold need
  rw [h1]
  simp only
  rw [h2]

theorem fromLine_row (n : Numbers F) (r : Row) (h : r.Ok) (x : Harmonic F) (hm : r.Means n x) : fromLine n r.text = .ok x := by
  obtain ⟨⟨hg0, hg6, hg⟩, hw, ⟨hp1, hp2⟩, _⟩ := h
  have e : words [] r.text = [r.number, r.frequency, r.component, r.normalized, r.phase ++ degree r.deg1, r.normPhase ++ degree r.deg2] := by
    unfold Row.text
    simp only [List.append_assoc]
    rw [words_lead _ _ (blank_space hg0), words_word _ _ _ (hw _ (by simp)) (hg _ (by simp)), words_word _ _ _ (hw _ (by simp)) (hg _ (by simp)),
      words_word _ _ _ (hw _ (by simp)) (hg _ (by simp)), words_word _ _ _ (hw _ (by simp)) (hg _ (by simp))]
    have e1 := words_word _ r.g5 (r.normPhase ++ (degree r.deg2 ++ r.g6)) (degree_word r.phase r.deg1 (hw _ (by simp))) (hg _ (by simp))
    have e2 := words_last _ r.g6 (degree_word r.normPhase r.deg2 (hw _ (by simp))) hg6
    rw [List.append_assoc] at e1 e2
    rw [e1, e2]
  unfold fromLine
  simp only [e]
  rw [need_ok n.int _ 0 _ _ rfl hm.number]
  rw [need_ok n.float _ 1 _ _ rfl hm.frequency, need_ok n.float _ 2 _ _ rfl hm.component, need_ok n.float _ 3 _ _ rfl hm.normalized]
  rw [need_ok (fun t => n.float (Model.PyStr.rstripChar '°' t)) _ 4 _ x.phase rfl (by rw [rstrip_degree _ _ hp1]; exact hm.phase)]
  rw [need_ok (fun t => n.float (Model.PyStr.rstripChar '°' t)) _ 5 _ x.normPhase rfl (by rw [rstrip_degree _ _ hp2]; exact hm.normPhase)]
  rfl

theorem number_none (c : Char) (cs : Str) (h : c.isDigit = false) : exec numberRe (c :: cs) = none := by
  unfold exec numberRe
  rw [go_grp, go_seq]
  unfold plus
  rw [go_seq]
  simp [go, h]

theorem number_some (a b r : Str) (ha : a ≠ [] ∧ ∀ c ∈ a, c.isDigit = true) (hb : b ≠ [] ∧ ∀ c ∈ b, c.isDigit = true) (hr : ∀ c, r.head? = some c → c.isDigit = false) :
    ∃ x : RSt, exec numberRe (a ++ ('.' :: (b ++ r))) = some x ∧ group x .number = a ++ '.' :: b := by
  let s0 : RSt := ⟨0, a ++ ('.' :: (b ++ r)), []⟩
  let s1 := adv s0 a ('.' :: (b ++ r))
  let s2 := adv s1 ['.'] (b ++ r)
  let s3 := adv s2 b r
  refine ⟨Model.Regex.St.close .number s0 s3, ?_, ?_⟩
  · unfold exec numberRe
    rw [go_grp, go_seq]
    refine go_plus _ _ s0 a ('.' :: (b ++ r)) ha.1 rfl ha.2 (by intro c hc; simp at hc; subst hc; decide) _ ?_
    rw [go_seq]
    show go (.cls _) _ s1 = _
    have hs : s1.rest = '.' :: (b ++ r) := rfl
    simp only [go, hs]
    rw [if_pos (by decide), next_adv s1 '.']
    exact go_plus _ _ s2 b r hb.1 rfl hb.2 hr _ rfl
  · have e : s3 = adv s0 (a ++ ['.'] ++ b) r := by
      show adv (adv (adv s0 a _) ['.'] _) b r = _
      rw [Lemmas.Regex.adv_adv, Lemmas.Regex.adv_adv, List.append_assoc]
    rw [e, close_adv .number s0 _ r (by simp [s0])]
    unfold group Model.Regex.St.get
    simp [List.lookup]

theorem search_ok (a b r : Str) (ha : a ≠ [] ∧ ∀ c ∈ a, c.isDigit = true) (hb : b ≠ [] ∧ ∀ c ∈ b, c.isDigit = true) (hr : ∀ c, r.head? = some c → c.isDigit = false) :
    ∀ p : Str, (∀ c ∈ p, c.isDigit = false) → searchNumber (p ++ (a ++ ('.' :: (b ++ r)))) = some (a ++ '.' :: b) := by
  intro p
  induction p with
  | nil =>
    intro _
    obtain ⟨x, hx, hg⟩ := number_some a b r ha hb hr
    obtain ⟨c, a', rfl⟩ := List.exists_cons_of_ne_nil ha.1
    rw [List.nil_append, List.cons_append]
    unfold searchNumber
    rw [List.cons_append] at hx
    rw [hx]
    simp only
    rw [hg]
  | cons c p ih =>
    intro h
    rw [List.cons_append]
    unfold searchNumber
    rw [number_none c _ (h c (by simp))]
    exact ih (fun d hd => h d (by simp [hd]))

theorem percent_ok (n : Numbers F) (k : Str) (hk : ∀ c ∈ k, c.isDigit = false) (p : Percent) (h : p.Ok) (y : F) (hy : n.float (p.whole ++ '.' :: p.frac) = some y) :
    percent n (k ++ p.text) = .ok y := by
  have e : k ++ p.text = (k ++ p.before) ++ (p.whole ++ ('.' :: (p.frac ++ p.after))) := by simp [Percent.text]
  unfold percent
  rw [e, search_ok _ _ _ h.whole h.frac h.after.2 _ (by
    intro c hc
    rcases List.mem_append.mp hc with hc | hc
    · exact hk c hc
    · exact h.before.2 c hc)]
  simp only
  rw [hy]

theorem digits_oneLine {a : Str} (h : ∀ c ∈ a, c.isDigit = true) : OneLine a := by
  intro c hc
  have := Lemmas.PyStr.digit_props c (h c hc)
  exact ⟨this.2.2.1, this.2.2.2.1⟩

theorem oneLine_append {a b : Str} (ha : OneLine a) (hb : OneLine b) : OneLine (a ++ b) := by
  intro c hc
  rcases List.mem_append.mp hc with hc | hc
  · exact ha c hc
  · exact hb c hc

theorem percent_line (p : Percent) (h : p.Ok) : OneLine p.text := by
  unfold Percent.text
  refine oneLine_append (oneLine_append h.before.1 (oneLine_append (digits_oneLine h.whole.2) ?_)) h.after.1
  intro c hc
  rcases List.mem_cons.mp hc with rfl | hc
  · decide
  · exact digits_oneLine h.frac.2 c hc

theorem blank_oneLine {a : Str} (h : Blank a) : OneLine a := by
  intro c hc
  rcases h c hc with rfl | rfl <;> decide

theorem word_oneLine {a : Str} (h : Word a) : OneLine a := by
  intro c hc
  have := h.2 c hc
  refine ⟨?_, ?_⟩ <;> (rintro rfl; exact absurd this (by decide))

theorem row_line (r : Row) (h : r.Ok) : OneLine r.text := by
  obtain ⟨⟨hg0, hg6, hg⟩, hw, _, _⟩ := h
  unfold Row.text
  have g : ∀ x ∈ [r.g1, r.g2, r.g3, r.g4, r.g5], OneLine x := fun x hx => blank_oneLine (hg x hx).2
  have w : ∀ x ∈ [r.number, r.frequency, r.component, r.normalized, r.phase, r.normPhase], OneLine x := fun x hx => word_oneLine (hw x hx)
  have d1 := word_oneLine (degree_word r.phase r.deg1 (hw _ (by simp)))
  have d2 := word_oneLine (degree_word r.normPhase r.deg2 (hw _ (by simp)))
  have p1 := oneLine_append (oneLine_append (blank_oneLine hg0) (w r.number (by simp))) (g r.g1 (by simp))
  have p2 := oneLine_append (oneLine_append (oneLine_append (oneLine_append p1 (w r.frequency (by simp))) (g r.g2 (by simp))) (w r.component (by simp))) (g r.g3 (by simp))
  exact oneLine_append (oneLine_append (oneLine_append (oneLine_append (oneLine_append (oneLine_append p2 (w r.normalized (by simp))) (g r.g4 (by simp))) d1) (g r.g5 (by simp))) d2)
    (blank_oneLine hg6)

theorem table_row (n : Numbers F) (s : St V F) (phd thd : Option F) (hs : List (Harmonic F)) (r : Row) (h : r.Ok) (x : Harmonic F) (hm : r.Means n x) :
    tableLine n s phd thd hs (r.text ++ ['\n']) = .ok { s with mode := .table phd thd (hs ++ [x]) } := by
  have hhead : ∃ c t, r.text = c :: t ∧ (c = ' ' ∨ c = '\t' ∨ c.isDigit = true) := by
    obtain ⟨c, t, hc, hd⟩ := h.digit
    unfold Row.text
    cases hg : r.g0 with
    | nil => rw [hc]; exact ⟨c, _, by simp; rfl, .inr (.inr hd)⟩
    | cons d g =>
      refine ⟨d, _, by simp; rfl, ?_⟩
      rcases h.gaps.1 d (by rw [hg]; simp) with rfl | rfl
      · exact .inl rfl
      · exact .inr (.inl rfl)
  obtain ⟨c, t, ht, hc⟩ := hhead
  have hne : c ≠ 'T' ∧ c ≠ 'P' := by
    refine ⟨?_, ?_⟩ <;> (rintro rfl; revert hc; decide)
  unfold tableLine
  simp only
  rw [stripEol_line _ (row_line r h)]
  have e1 : starts "Total Harmonic".toList r.text = false := by
    apply starts_false
    rw [ht]
    rintro ⟨q, hq⟩
    injection hq with h1 _
    exact hne.1 h1.symm
  have e2 : starts "Partial Harmonic".toList r.text = false := by
    apply starts_false
    rw [ht]
    rintro ⟨q, hq⟩
    injection hq with h1 _
    exact hne.2 h1.symm
  rw [e1, e2, if_neg (by decide), if_neg (by decide), if_neg (by rw [ht]; simp), fromLine_row n r h x hm]

theorem lines_rows (n : Numbers F) (w : WordClass) (conv : Str → V) (s : St V F) (phd thd : Option F) (rest : List Str) : ∀ (rows : List Row) (xs hs : List (Harmonic F)),
    (∀ r ∈ rows, r.Ok) → List.Forall₂ (Row.Means n) rows xs →
    lines n w conv ((rows.map Row.text).map (fun l => l ++ ['\n']) ++ rest) { s with mode := .table phd thd hs } =
      lines n w conv rest { s with mode := .table phd thd (hs ++ xs) } := by
  intro rows
  induction rows with
  | nil => intro xs hs _ h; cases h; simp
  | cons r rows ih =>
    intro xs hs h1 h2
    cases h2 with
    | cons hm h2 =>
      rename_i x xs
      rw [List.map_cons, List.map_cons, List.cons_append]
      rw [lines_next n w conv _ _ _ { s with mode := .table phd thd (hs ++ [x]) } (by
        unfold line
        simp only
        rw [table_row n _ phd thd hs r (h1 r (by simp)) x hm]
        rfl)]
      rw [ih xs (hs ++ [x]) (fun q hq => h1 q (by simp [hq])) h2]
      simp

theorem lastPart_none (pat : Str) : ∀ (s cur : Str), ¬ pat <:+: s → lastPart pat 0 cur s = cur ++ s := by
  intro s
  induction s with
  | nil => intro cur _; simp [lastPart]
  | cons c s ih =>
    intro cur h
    unfold lastPart
    rw [if_neg (fun hp => h (List.isPrefixOf_iff_prefix.mp hp).isInfix), ih _ (fun hi => h (hi.trans ⟨[c], [], by simp⟩))]
    simp

theorem strip_word {x : Str} (h : Word x) : strip x = x := by
  have := Lemmas.PyStr.strip_pad [] x (by simp) h.2
  simpa using this

theorem not_word (w : WordClass) {c : Char} (h : isSpace c = true ∨ c ∈ ['-', '.', '+', '*']) : w.word c = false := by
  by_contra hw
  rw [Bool.not_eq_false] at hw
  have := w.not c hw
  rcases h with hc | hc
  · rw [this.1] at hc; exact absurd hc (by decide)
  · simp only [List.mem_cons, List.not_mem_nil, or_false] at hc
    rcases hc with rfl | rfl | rfl | rfl <;> exact absurd this.2 (by decide)

theorem line_periods (n : Numbers F) (w : WordClass) (conv : Str → V) (s : St V F) (b : Block) (h : b.Ok) (x : F)
    (hx : (b.periods = none ∧ x = n.ofInt (-1)) ∨ ∃ p, b.periods = some p ∧ n.float p = some x) (hm : s.mode = .normal) :
    line n w conv s ("N-Period=".toList ++ b.periods.getD "all".toList ++ ['\n']) = .ok (some { s with periods := x }) := by
  have hw : Word (b.periods.getD "all".toList) ∧ '=' ∉ b.periods.getD "all".toList := by
    cases hp : b.periods with
    | none => refine ⟨⟨by decide, ?_⟩, by decide⟩; decide
    | some p => exact ⟨(h.periods p hp).1, (h.periods p hp).2.2⟩
  have hone : OneLine ("N-Period=".toList ++ b.periods.getD "all".toList) := oneLine_append (by unfold OneLine; decide) (word_oneLine hw.1)
  have hl : ¬ Looks w ("N-Period=".toList ++ b.periods.getD "all".toList) :=
    not_looks w ['N'] '-' ("Period=".toList ++ b.periods.getD "all".toList) (by intro d hd; simp at hd; subst hd; exact w.ascii _ (by decide))
      (not_word w (by decide)) (by decide) (by decide)
  have hlast : strip ((splitOn '=' (stripEol ("N-Period=".toList ++ b.periods.getD "all".toList ++ ['\n']))).getLastD []) = b.periods.getD "all".toList := by
    rw [stripEol_line _ hone]
    have : "N-Period=".toList ++ b.periods.getD "all".toList = "N-Period".toList ++ '=' :: b.periods.getD "all".toList := rfl
    rw [this, Props.LogRead.splitOn_cons '=' _ _ (by decide), Props.LogRead.splitOn_clean '=' _ (fun c hc e => hw.2 (e ▸ hc))]
    exact strip_word hw.1
  rw [line_normal _ _ _ _ _ hm]
  unfold normalLine
  rw [if_neg (strip_ne _ 'N' (by simp) (by decide)), show starts "N-Period".toList ("N-Period=".toList ++ b.periods.getD "all".toList ++ ['\n']) = true from rfl, if_pos rfl]
  have : periodsLine n w conv s ("N-Period=".toList ++ b.periods.getD "all".toList ++ ['\n']) = .ok { s with periods := x } := by
    unfold periodsLine
    simp only
    rw [hlast]
    rcases hx with ⟨hp, rfl⟩ | ⟨p, hp, hf⟩
    · rw [if_pos (by rw [hp]; rfl), finish_not' w conv _ _ hl]
    · rw [if_neg (by rw [hp]; exact (h.periods p hp).2.1)]
      have : n.float (b.periods.getD "all".toList) = some x := by rw [hp]; exact hf
      rw [this]
      simp only
      rw [finish_not' w conv _ _ hl]
  rw [this]
  rfl

theorem line_signal (n : Numbers F) (w : WordClass) (conv : Str → V) (s : St V F) (b : Block) (h : b.Ok) (hm : s.mode = .normal) :
    line n w conv s ("Fourier components of ".toList ++ b.signal ++ ['\n']) = .ok (some { s with signal := some b.signal }) := by
  have hone : OneLine ("Fourier components of ".toList ++ b.signal) := oneLine_append (by unfold OneLine; decide) h.signal.1
  have hl : ¬ Looks w ("Fourier components of ".toList ++ b.signal) :=
    not_looks w "Fourier".toList ' ' ("components of ".toList ++ b.signal) (by
      intro d hd
      apply w.ascii
      revert d; decide) (not_word w (by decide)) (by decide) (by decide)
  rw [line_normal _ _ _ _ _ hm]
  unfold normalLine
  rw [if_neg (strip_ne _ 'F' (by simp) (by decide)), show starts "N-Period".toList ("Fourier components of ".toList ++ b.signal ++ ['\n']) = false from rfl,
    show starts "Fourier components of".toList ("Fourier components of ".toList ++ b.signal ++ ['\n']) = true from rfl, if_neg (by decide), if_pos rfl]
  rw [stripEol_line _ hone, finish_not w conv _ _ hl]
  have : lastPart " of ".toList 0 [] ("Fourier components of ".toList ++ b.signal) = b.signal := by
    have e : lastPart " of ".toList 0 [] ("Fourier components of ".toList ++ b.signal) = lastPart " of ".toList 0 [] b.signal := rfl
    rw [e, lastPart_none _ _ _ h.signal.2.2.2]
    rfl
  rw [this, h.signal.2.2.1]

theorem line_dc (n : Numbers F) (w : WordClass) (conv : Str → V) (s : St V F) (b : Block) (h : b.Ok) (x : F) (hx : n.float b.dc = some x) (hm : s.mode = .normal) :
    line n w conv s ("DC component:".toList ++ b.dc ++ ['\n']) = .ok (some { s with dc := x }) := by
  have hone : OneLine ("DC component:".toList ++ b.dc) := oneLine_append (by unfold OneLine; decide) (word_oneLine h.dc.1)
  have hl : ¬ Looks w ("DC component:".toList ++ b.dc) :=
    not_looks w "DC".toList ' ' ("component:".toList ++ b.dc) (by
      intro d hd
      apply w.ascii
      revert d; decide) (not_word w (by decide)) (by decide) (by decide)
  rw [line_normal _ _ _ _ _ hm]
  unfold normalLine
  rw [if_neg (strip_ne _ 'D' (by simp) (by decide)), show starts "N-Period".toList ("DC component:".toList ++ b.dc ++ ['\n']) = false from rfl,
    show starts "Fourier components of".toList ("DC component:".toList ++ b.dc ++ ['\n']) = false from rfl,
    show starts "DC component:".toList ("DC component:".toList ++ b.dc ++ ['\n']) = true from rfl, if_neg (by decide), if_neg (by decide), if_pos rfl]
  have : dcLine n w conv s ("DC component:".toList ++ b.dc ++ ['\n']) = .ok { s with dc := x } := by
    unfold dcLine
    rw [stripEol_line _ hone]
    have e : "DC component:".toList ++ b.dc = "DC component".toList ++ ':' :: b.dc := rfl
    have e2 : strip ((splitOn ':' ("DC component:".toList ++ b.dc)).getLastD []) = b.dc := by
      rw [e, Props.LogRead.splitOn_cons ':' _ _ (by decide), Props.LogRead.splitOn_clean ':' _ (fun c hc e => h.dc.2 (e ▸ hc))]
      exact strip_word h.dc.1
    rw [e2, hx]
    simp only
    rw [finish_not w conv _ _ hl]
  rw [this]
  rfl

theorem lines_blank (n : Numbers F) (w : WordClass) (conv : Str → V) (s : St V F) (hm : s.mode = .normal) (rest : List Str) (k : Nat) :
    lines n w conv ((List.replicate k ([] : Str)).map (fun l => l ++ ['\n']) ++ rest) s = lines n w conv rest s := by
  induction k with
  | zero => rfl
  | succ k ih =>
    rw [List.replicate_succ, List.map_cons, List.cons_append, lines_next n w conv _ _ s s, ih]
    rw [line_normal _ _ _ _ _ hm]
    unfold normalLine
    rw [if_pos (by decide), finish_not' w conv s [] (fun hl => absurd (looks_eq hl) (by simp))]

/-- A Fourier table with the lines before it. -/
theorem lines_block (n : Numbers F) (w : WordClass) (conv : Str → V) (s : St V F) (b : Block) (h : b.Ok) (x : Fourier F) (hx : b.Means n x) (hm : s.mode = .normal) (rest : List Str) :
    lines n w conv (b.lines.map (fun l => l ++ ['\n']) ++ rest) s =
      lines n w conv rest { s with signal := some b.signal, periods := x.periods, dc := x.dc, fourier := record (some b.signal) { x with step := (s.steps.count : Int) - 1 } s.fourier } := by
  obtain ⟨y1, hy1, hf1⟩ := hx.phd
  obtain ⟨y2, hy2, hf2⟩ := hx.thd
  have e : b.lines.map (fun l => l ++ ['\n']) ++ rest =
      ("N-Period=".toList ++ b.periods.getD "all".toList ++ ['\n']) :: ("Fourier components of ".toList ++ b.signal ++ ['\n']) :: ("DC component:".toList ++ b.dc ++ ['\n']) ::
      ((List.replicate b.gap ([] : Str)).map (fun l => l ++ ['\n']) ++ (("Harmonic".toList ++ b.head1 ++ ['\n']) :: (b.head2 ++ ['\n']) ::
      ((b.rows.map Row.text).map (fun l => l ++ ['\n']) ++ (("Partial Harmonic".toList ++ b.phd.text ++ ['\n']) :: ("Total Harmonic".toList ++ b.thd.text ++ ['\n']) :: ['\n'] :: rest)))) := by
    unfold Block.lines
    simp only [List.map_append, List.map_cons, List.map_nil, List.append_assoc, List.cons_append, List.nil_append]
  rw [e, lines_next n w conv _ _ _ _ (line_periods n w conv s b h x.periods hx.periods hm)]
  rw [lines_next n w conv _ _ _ _ (line_signal n w conv { s with periods := x.periods } b h hm)]
  rw [lines_next n w conv _ _ _ _ (line_dc n w conv { s with periods := x.periods, signal := some b.signal } b h x.dc hx.dc hm)]
  rw [lines_blank n w conv { s with periods := x.periods, signal := some b.signal, dc := x.dc } hm]
  generalize hs1 : ({ s with periods := x.periods, signal := some b.signal, dc := x.dc } : St V F) = s1
  have hm1 : s1.mode = .normal := by rw [← hs1]; exact hm
  rw [lines_next n w conv _ _ s1 { s1 with mode := .skip } (by
    rw [line_normal _ _ _ _ _ hm1]
    unfold normalLine
    rw [if_neg (strip_ne _ 'H' (by simp) (by decide)), show starts "N-Period".toList ("Harmonic".toList ++ b.head1 ++ ['\n']) = false from rfl,
      show starts "Fourier components of".toList ("Harmonic".toList ++ b.head1 ++ ['\n']) = false from rfl,
      show starts "DC component:".toList ("Harmonic".toList ++ b.head1 ++ ['\n']) = false from rfl,
      show starts "Harmonic".toList ("Harmonic".toList ++ b.head1 ++ ['\n']) = true from rfl, if_neg (by decide), if_neg (by decide), if_neg (by decide), if_pos rfl])]
  rw [lines_next n w conv _ _ { s1 with mode := .skip } { s1 with mode := .table none none [] } rfl]
  rw [lines_rows n w conv s1 none none _ b.rows x.harmonics [] h.rows hx.harmonics, List.nil_append]
  have hd : ∀ c ∈ "Partial Harmonic".toList, c.isDigit = false := by decide
  have hd2 : ∀ c ∈ "Total Harmonic".toList, c.isDigit = false := by decide
  rw [lines_next n w conv _ _ { s1 with mode := .table none none x.harmonics } { s1 with mode := .table (some y1) none x.harmonics } (by
    unfold line
    simp only
    unfold tableLine
    simp only
    rw [stripEol_line _ (oneLine_append (by unfold OneLine; decide) (percent_line _ h.phd)),
      show starts "Total Harmonic".toList ("Partial Harmonic".toList ++ b.phd.text) = false from rfl,
      show starts "Partial Harmonic".toList ("Partial Harmonic".toList ++ b.phd.text) = true from rfl, if_neg (by decide), if_pos rfl,
      percent_ok n _ hd b.phd h.phd y1 hf1]
    rfl)]
  rw [lines_next n w conv _ _ { s1 with mode := .table (some y1) none x.harmonics } { s1 with mode := .table (some y1) (some y2) x.harmonics } (by
    unfold line
    simp only
    unfold tableLine
    simp only
    rw [stripEol_line _ (oneLine_append (by unfold OneLine; decide) (percent_line _ h.thd)),
      show starts "Total Harmonic".toList ("Total Harmonic".toList ++ b.thd.text) = true from rfl, if_pos rfl,
      percent_ok n _ hd2 b.thd h.thd y2 hf2]
    rfl)]
  rw [lines_next n w conv _ _ { s1 with mode := .table (some y1) (some y2) x.harmonics } (endTable s1 (some y1) (some y2) x.harmonics) rfl]
  congr 1
  unfold endTable
  rw [← hs1, ← hy1, ← hy2, ← hm, ← hx.signal]

/-! ### The whole log -/

theorem lookup_record (k k' : Option Str) (x : Fourier F) (d : List (Option Str × List (Fourier F))) :
    (record k' x d).lookup k = if k = k' then some ((d.lookup k).getD [] ++ [x]) else d.lookup k := by
  induction d with
  | nil =>
    by_cases h : k = k'
    · subst h; simp [record, List.lookup]
    · have : (k == k') = false := by simpa using h
      simp [record, h, List.lookup, this]
  | cons e d ih =>
    obtain ⟨a, c⟩ := e
    rw [record]
    by_cases ha : a = k'
    · rw [if_pos ha]
      subst ha
      by_cases h : k = a
      · subst h; simp [List.lookup]
      · have : (k == a) = false := by simpa using h
        simp [List.lookup, h, this]
    · rw [if_neg ha]
      by_cases hk : k = a
      · have : ¬ k = k' := by rw [hk]; exact ha
        subst hk
        simp [List.lookup, this]
      · have hk' : (k == a) = false := by simpa using hk
        simp only [List.lookup, hk']
        exact ih

theorem lookup_putMeasures (conv : Str → V) (k : Name) : ∀ (cols : List (Str × Str)) (d : Dict (List V)),
    (putMeasures conv d cols).lookup k = ((cols.reverse.find? (fun c => lower c.1 = k)).map (fun c => [conv c.2])).or (d.lookup k) := by
  intro cols
  induction cols with
  | nil => intro d; simp [putMeasures]
  | cons c cols ih =>
    intro d
    have e : putMeasures conv d (c :: cols) = putMeasures conv (put (lower c.1) [conv c.2] d) cols := rfl
    rw [e, ih, Props.LogRead.lookup_put, List.reverse_cons, List.find?_append]
    cases h : cols.reverse.find? (fun c => lower c.1 = k) with
    | some y => simp
    | none =>
      by_cases hk : k = lower c.1
      · subst hk; simp
      · have : ¬ lower c.1 = k := fun e => hk e.symm
        simp [hk, this]

theorem putMeasures_append (conv : Str → V) (d : Dict (List V)) (a b : List (Str × Str)) : putMeasures conv d (a ++ b) = putMeasures conv (putMeasures conv d a) b := by
  unfold putMeasures
  rw [List.foldl_append]

/-- What the lines of the items do to a reader between tables. -/
theorem lines_items (n : Numbers F) (w : WordClass) (conv : Str → V) : ∀ (items : List (Item F)) (s : St V F), s.mode = .normal →
    (∀ i ∈ items, i.Ok n w) → ∃ s' : St V F,
      (∀ rest : List Str, lines n w conv ((items.flatMap Item.lines).map (fun l => l ++ ['\n']) ++ rest) s = lines n w conv rest s') ∧ s'.mode = .normal ∧
      s'.steps.count = s.steps.count + (stepsOf items).countP hasAssign ∧
      (∀ k, column s'.steps.stepset k = column s.steps.stepset k ++ (stepsOf items).flatMap (Props.LogRead.assigned conv k)) ∧
      s'.dataset = putMeasures conv s.dataset (if s.steps.count = 0 then measured items else []) ∧
      (∀ sig, s'.fourier.lookup (some sig) = if fourierOf sig s.steps.count items = [] then s.fourier.lookup (some sig)
        else some ((s.fourier.lookup (some sig)).getD [] ++ fourierOf sig s.steps.count items)) := by
  intro items
  induction items with
  | nil => intro s hm _; exact ⟨s, fun _ => rfl, hm, by simp [stepsOf], by simp [stepsOf], by simp [measured, putMeasures], by simp [fourierOf]⟩
  | cons i items ih =>
    intro s hm h
    have hi := h i (by simp)
    have ht : ∀ j ∈ items, j.Ok n w := fun j hj => h j (by simp [hj])
    cases i with
    | other t =>
      obtain ⟨s', a1, a2, a3, a4, a5, a6⟩ := ih s hm ht
      refine ⟨s', ?_, a2, a3, a4, ?_, a6⟩
      · intro rest
        rw [List.flatMap_cons, List.map_append, List.append_assoc, ← a1]
        exact lines_next n w conv _ _ s s (line_other n w conv s t hm hi)
      · rw [a5]; rfl
    | measure m =>
      have hl := line_measure n w conv s m hm hi
      by_cases h0 : s.steps.count = 0
      · rw [if_pos h0] at hl
        obtain ⟨s', a1, a2, a3, a4, a5, a6⟩ := ih { s with dataset := putMeasures conv s.dataset m.columns } hm ht
        refine ⟨s', ?_, a2, a3, a4, ?_, a6⟩
        · intro rest
          rw [List.flatMap_cons, List.map_append, List.append_assoc, ← a1]
          exact lines_next n w conv _ _ s _ hl
        · rw [a5]
          show putMeasures conv (putMeasures conv s.dataset m.columns) (if s.steps.count = 0 then measured items else []) = _
          rw [if_pos h0, if_pos h0, ← putMeasures_append]
          rfl
      · rw [if_neg h0] at hl
        obtain ⟨s', a1, a2, a3, a4, a5, a6⟩ := ih s hm ht
        refine ⟨s', ?_, a2, a3, a4, ?_, a6⟩
        · intro rest
          rw [List.flatMap_cons, List.map_append, List.append_assoc, ← a1]
          exact lines_next n w conv _ _ s _ hl
        · rw [a5, if_neg h0, if_neg h0]
    | step toks =>
      obtain ⟨st, b1, b2, b3⟩ := Props.LogRead.stepLine_ok conv s.steps toks ['\n'] hi (.inr (.inl rfl))
      have hl : line n w conv s (".step".toList ++ toks.flatMap (fun t => ' ' :: t.text) ++ ['\n']) = .ok (some { s with steps := st }) := by
        have hnl : ¬ Looks w (".step".toList ++ toks.flatMap (fun t => ' ' :: t.text)) :=
          not_looks w [] '.' ("step".toList ++ toks.flatMap (fun t => ' ' :: t.text)) (by simp) (not_word w (by decide)) (by decide) (by decide)
        rw [line_normal _ _ _ _ _ hm]
        unfold normalLine
        rw [if_neg (strip_ne _ '.' (by simp) (by decide)), show starts "N-Period".toList (".step".toList ++ toks.flatMap (fun t => ' ' :: t.text) ++ ['\n']) = false from rfl,
          show starts "Fourier components of".toList (".step".toList ++ toks.flatMap (fun t => ' ' :: t.text) ++ ['\n']) = false from rfl,
          show starts "DC component:".toList (".step".toList ++ toks.flatMap (fun t => ' ' :: t.text) ++ ['\n']) = false from rfl,
          show starts "Harmonic".toList (".step".toList ++ toks.flatMap (fun t => ' ' :: t.text) ++ ['\n']) = false from rfl,
          show starts ".step".toList (".step".toList ++ toks.flatMap (fun t => ' ' :: t.text) ++ ['\n']) = true from rfl,
          if_neg (by decide), if_neg (by decide), if_neg (by decide), if_neg (by decide), if_pos rfl]
        have : stepLineOf w conv s (".step".toList ++ toks.flatMap (fun t => ' ' :: t.text) ++ ['\n']) = .ok { s with steps := st } := by
          unfold stepLineOf
          unfold Props.LogRead.lineText at b1
          rw [b1]
          simp only
          rw [finish_not' w conv _ _ hnl]
        rw [this]
        rfl
      obtain ⟨s', a1, a2, a3, a4, a5, a6⟩ := ih { s with steps := st } hm ht
      have hso : stepsOf (Item.step toks :: items) = toks :: stepsOf items := rfl
      refine ⟨s', ?_, a2, ?_, ?_, ?_, ?_⟩
      · intro rest
        rw [List.flatMap_cons, List.map_append, List.append_assoc, ← a1]
        exact lines_next n w conv _ _ s _ hl
      · rw [a3, hso, List.countP_cons]
        show st.count + _ = _
        rw [b2]; omega
      · intro k
        rw [a4 k, hso, List.flatMap_cons]
        show column st.stepset k ++ _ = _
        rw [b3 k, List.append_assoc]
      · rw [a5]
        show putMeasures conv s.dataset (if st.count = 0 then measured items else []) = _
        congr 1
        rw [b2]
        by_cases ha : hasAssign toks = true
        · rw [if_pos ha, if_neg (by omega)]
          unfold measured
          rw [List.takeWhile_cons_of_neg (by simp [Item.isStep, ha])]
          simp
        · rw [if_neg ha, Nat.add_zero]
          unfold measured
          rw [List.takeWhile_cons_of_pos (by simp [Item.isStep, ha]), List.flatMap_cons]
          rfl
      · intro sig
        rw [a6 sig]
        have e : fourierOf sig s.steps.count (Item.step toks :: items) = fourierOf sig st.count items := by
          rw [fourierOf, b2]
          split_ifs <;> rfl
        rw [e]
    | fourier b x =>
      obtain ⟨hb, hx⟩ := hi
      have hl := lines_block n w conv s b hb x hx hm
      obtain ⟨s', a1, a2, a3, a4, a5, a6⟩ := ih { s with signal := some b.signal, periods := x.periods, dc := x.dc, fourier := record (some b.signal) { x with step := (s.steps.count : Int) - 1 } s.fourier } hm ht
      refine ⟨s', ?_, a2, a3, a4, ?_, ?_⟩
      · intro rest
        rw [List.flatMap_cons, List.map_append, List.append_assoc, ← a1, ← hl]
        rfl
      · rw [a5]; rfl
      · intro sig
        rw [a6 sig]
        show (if fourierOf sig s.steps.count items = [] then (record (some b.signal) { x with step := (s.steps.count : Int) - 1 } s.fourier).lookup (some sig)
          else some (((record (some b.signal) { x with step := (s.steps.count : Int) - 1 } s.fourier).lookup (some sig)).getD [] ++ fourierOf sig s.steps.count items)) = _
        rw [lookup_record, fourierOf]
        by_cases hs : b.signal = sig
        · have hs' : some sig = some b.signal := by rw [hs]
          simp only [hs, if_true]
          rw [if_neg (by simp : ¬ ([{ x with step := (s.steps.count : Int) - 1 }] ++ fourierOf sig s.steps.count items = []))]
          by_cases hf : fourierOf sig s.steps.count items = []
          · rw [if_pos hf, hf]; simp
          · rw [if_neg hf]; simp
        · have hs' : ¬ some sig = some b.signal := fun e => hs (Option.some.inj e).symm
          simp only [hs, hs', if_false, List.nil_append]

theorem oneLine_intercalate (ws : List Str) (h : ∀ x ∈ ws, OneLine x) : OneLine (List.intercalate ['\t'] ws) := by
  intro c hc
  rcases Props.RawSteps.mem_intercalate ws hc with rfl | ⟨x, hx, hc⟩
  · decide
  · exact h x hx c hc

theorem splitOn_same (sep : Char) (s : Str) : Model.LogRead.splitOn sep s = Model.PyStr.splitOn sep s := by
  induction s with
  | nil => rfl
  | cons c s ih =>
    unfold Model.LogRead.splitOn Model.PyStr.splitOn
    rw [ih]
    cases Model.PyStr.splitOn sep s <;> rfl

theorem toMLine_tokens (ws : List Str) (x : Str) (hx : ¬ "Measurement: ".toList <+: x) (h : ∀ y ∈ x :: ws, OneLine y ∧ '\t' ∉ y) :
    toMLine (List.intercalate ['\t'] (x :: ws) ++ ['\n']) = .tokens (x :: ws) := by
  unfold toMLine
  rw [stripEol_line _ (oneLine_intercalate _ (fun y hy => (h y hy).1))]
  have e : starts "Measurement: ".toList (List.intercalate ['\t'] (x :: ws)) = false := by
    apply starts_false
    intro hp
    apply hx
    cases ws with
    | nil => simpa [List.intercalate] using hp
    | cons y ys =>
      have e : List.intercalate ['\t'] (x :: y :: ys) = x ++ '\t' :: List.intercalate ['\t'] (y :: ys) := by simp [List.intercalate]
      rw [e] at hp
      obtain ⟨r, hr⟩ := hp
      rcases List.append_eq_append_iff.mp hr with ⟨a, h1, _⟩ | ⟨a, h1, h2⟩
      · exact ⟨a, h1.symm⟩
      · cases a with
        | nil => rw [h1, List.append_nil]; exact List.prefix_refl _
        | cons z a =>
          rw [List.cons_append] at h2
          injection h2 with h3 _
          exact absurd (show '\t' ∈ "Measurement: ".toList by rw [h1, ← h3]; simp) (by decide)
  rw [if_neg (by rw [e]; decide), splitOn_same, Props.RawSteps.splitOn_words '\t' (x :: ws) (by simp) (fun y hy => (h y hy).2)]

theorem toMLine_table (t : Table) (h : TableOk t) : ((tableLines t).map (fun l => l ++ ['\n'])).map toMLine = t.lines := by
  have e1 : toMLine ("Measurement: ".toList ++ t.name ++ ['\n']) = .title t.name := by
    unfold toMLine
    rw [stripEol_line _ (oneLine_append (by unfold OneLine; decide) h.name)]
    rfl
  have hform : ∀ x ∈ t.form.inFile, OneLine x ∧ '\t' ∉ x := by
    cases t.form <;> (unfold Props.LogRead.Form.inFile OneLine; decide)
  have e2 : toMLine (List.intercalate ['\t'] (t.t0 :: t.t1 :: t.form.inFile) ++ ['\n']) = .tokens (t.t0 :: t.t1 :: t.form.inFile) := by
    apply toMLine_tokens _ _ h.first.1
    intro y hy
    rcases List.mem_cons.mp hy with rfl | hy
    · exact h.titles _ (by simp)
    · rcases List.mem_cons.mp hy with rfl | hy
      · exact h.titles _ (by simp)
      · exact hform y hy
  unfold tableLines Table.lines
  simp only [List.map_append, List.map_cons, List.map_nil, List.cons_append, List.nil_append, List.map_map]
  rw [e1, e2]
  congr 2
  congr 1
  · apply List.map_congr_left
    intro r hr
    exact toMLine_tokens r.2 r.1 (h.first.2 r hr) (h.rows r hr)
  · rw [List.map_replicate]
    rfl

theorem lines_tables (n : Numbers F) (w : WordClass) (conv : Str → V) (tables : List Table) (s : St V F) (hm : s.mode = .normal) :
    lines n w conv ((tables.flatMap tableLines).map (fun l => l ++ ['\n'])) s = .ok (s, (tables.flatMap tableLines).map (fun l => l ++ ['\n'])) := by
  cases tables with
  | nil =>
    show Except.ok (atEnd s, []) = _
    unfold atEnd
    rw [hm]
    rfl
  | cons t ts =>
    have e : ((t :: ts).flatMap tableLines).map (fun l => l ++ ['\n']) = ("Measurement: ".toList ++ t.name ++ ['\n']) ::
        ((List.intercalate ['\t'] (t.t0 :: t.t1 :: t.form.inFile) :: (t.rows.map (fun r => List.intercalate ['\t'] (r.1 :: r.2)) ++ List.replicate t.blanks [] ++ ts.flatMap tableLines)).map (fun l => l ++ ['\n'])) := by
      rw [List.flatMap_cons]
      unfold tableLines
      simp only [List.map_append, List.map_cons, List.cons_append, List.nil_append, List.append_assoc]
    rw [e]
    conv_lhs => unfold lines
    have : line n w conv s ("Measurement: ".toList ++ t.name ++ ['\n']) = .ok none := by
      rw [line_normal _ _ _ _ _ hm]
      unfold normalLine
      rw [if_neg (strip_ne _ 'M' (by simp) (by decide)), show starts "N-Period".toList ("Measurement: ".toList ++ t.name ++ ['\n']) = false from rfl,
          show starts "Fourier components of".toList ("Measurement: ".toList ++ t.name ++ ['\n']) = false from rfl,
          show starts "DC component:".toList ("Measurement: ".toList ++ t.name ++ ['\n']) = false from rfl,
          show starts "Harmonic".toList ("Measurement: ".toList ++ t.name ++ ['\n']) = false from rfl,
          show starts ".step".toList ("Measurement: ".toList ++ t.name ++ ['\n']) = false from rfl,
          show starts "Measurement:".toList ("Measurement: ".toList ++ t.name ++ ['\n']) = true from rfl,
          if_neg (by decide), if_neg (by decide), if_neg (by decide), if_neg (by decide), if_neg (by decide), if_pos rfl]
    rw [this]

theorem measure_oneLine (w : WordClass) (m : Measure) (h : m.Ok w) : '\n' ∉ m.text := by
  intro hc
  have hnum : ∀ a : Str, (∀ c ∈ a, NumChar c) → '\n' ∉ a := fun a ha hx => absurd (ha _ hx) (by unfold NumChar; decide)
  have hup : ∀ (k u : Str), Model.PyStr.upper k = u → '\n' ∉ u → '\n' ∉ k := by
    intro k u e hn hx
    apply hn
    rw [← e]
    unfold Model.PyStr.upper
    exact List.mem_map.mpr ⟨'\n', hx, by decide⟩
  unfold Measure.text at hc
  rcases List.mem_append.mp hc with hc | hc
  · rcases List.mem_append.mp hc with hc | hc
    · rcases List.mem_append.mp hc with hc | hc
      · rcases List.mem_append.mp hc with hc | hc
        · have := (w.not _ (h.name.2 _ hc)).1
          exact absurd this (by decide)
        · unfold Measure.head at hc
          cases he : m.expr with
          | none => rw [he] at hc; simp at hc
          | some e =>
            rw [he] at hc
            simp at hc
            rcases hc with hc | hc
            · rcases (h.expr e he).1.2 _ hc with e | e <;> exact absurd e (by decide)
            · exact ((h.expr e he).2 _ hc).1 rfl
      · rcases List.mem_cons.mp hc with hc | hc
        · exact absurd hc (by decide)
        · have := h.value.2 _ hc
          rw [← valueChar_iff, value_not w (.inl (by decide))] at this
          exact absurd this (by decide)
    · have hw := h.window
      cases hm : m.window with
      | plain => rw [hm] at hc; simp [Window.text] at hc
      | interval f a t b =>
        rw [hm] at hc hw
        obtain ⟨hf, ⟨_, ha⟩, ht, ⟨_, hb⟩⟩ := hw
        simp [Window.text, hup f _ hf (by decide), hup t _ ht (by decide), hnum a ha, hnum b hb] at hc
      | point k a =>
        rw [hm] at hc hw
        obtain ⟨hk, ⟨_, ha⟩⟩ := hw
        simp [Window.text, hup k _ hk (by decide), hnum a ha] at hc
  · rcases h.trail _ hc with e | e <;> exact absurd e (by decide)

theorem item_lines (n : Numbers F) (w : WordClass) (i : Item F) (h : i.Ok n w) : ∀ l ∈ i.lines, '\n' ∉ l := by
  cases i with
  | step toks =>
    intro l hl
    simp only [Item.lines, List.mem_singleton] at hl
    subst hl
    intro hc
    rcases List.mem_append.mp hc with hc | hc
    · exact absurd hc (by decide)
    · obtain ⟨t, ht, hc⟩ := List.mem_flatMap.mp hc
      rcases List.mem_cons.mp hc with hc | hc
      · exact absurd hc (by decide)
      · exact (Props.LogRead.clean_text (h t ht) _ hc).2.2 rfl
  | measure m =>
    intro l hl
    simp only [Item.lines, List.mem_singleton] at hl
    subst hl
    exact measure_oneLine w m h
  | other t =>
    intro l hl
    simp only [Item.lines, List.mem_singleton] at hl
    subst hl
    exact fun hc => (h.line _ hc).1 rfl
  | fourier b x =>
    obtain ⟨hb, _⟩ := h
    have hp : '\n' ∉ b.periods.getD "all".toList := by
      cases hp : b.periods with
      | none => decide
      | some p => exact fun hc => (word_oneLine (hb.periods p hp).1 _ hc).1 rfl
    have o : ∀ s : Str, OneLine s → '\n' ∉ s := fun s hs hc => (hs _ hc).1 rfl
    intro l hl
    simp only [Item.lines, Block.lines, List.mem_append, List.mem_cons, List.not_mem_nil, or_false, List.mem_replicate, List.mem_map] at hl
    rcases hl with (((hl | hl) | hl) | hl) | hl
    · rcases hl with rfl | rfl | rfl
      · exact fun hc => by rcases List.mem_append.mp hc with hc | hc; exact absurd hc (by decide); exact hp hc
      · exact fun hc => by rcases List.mem_append.mp hc with hc | hc; exact absurd hc (by decide); exact o _ hb.signal.1 hc
      · exact fun hc => by rcases List.mem_append.mp hc with hc | hc; exact absurd hc (by decide); exact o _ (word_oneLine hb.dc.1) hc
    · rw [hl.2]; simp
    · rcases hl with rfl | rfl
      · exact fun hc => by rcases List.mem_append.mp hc with hc | hc; exact absurd hc (by decide); exact o _ hb.heads.1 hc
      · exact o _ hb.heads.2
    · obtain ⟨r, hr, rfl⟩ := hl
      exact o _ (row_line r (hb.rows r hr))
    · rcases hl with rfl | rfl | rfl
      · exact fun hc => by rcases List.mem_append.mp hc with hc | hc; exact absurd hc (by decide); exact o _ (percent_line _ hb.phd) hc
      · exact fun hc => by rcases List.mem_append.mp hc with hc | hc; exact absurd hc (by decide); exact o _ (percent_line _ hb.thd) hc
      · simp

theorem table_lines (t : Table) (h : TableOk t) : ∀ l ∈ tableLines t, '\n' ∉ l := by
  have o : ∀ s : Str, OneLine s → '\n' ∉ s := fun s hs hc => (hs _ hc).1 rfl
  have hform : ∀ x ∈ t.form.inFile, OneLine x := by
    cases t.form <;> (unfold Props.LogRead.Form.inFile OneLine; decide)
  intro l hl
  simp only [tableLines, List.mem_append, List.mem_cons, List.not_mem_nil, or_false, List.mem_replicate, List.mem_map] at hl
  rcases hl with (hl | hl) | hl
  · rcases hl with rfl | rfl
    · exact o _ (oneLine_append (by unfold OneLine; decide) h.name)
    · refine o _ (oneLine_intercalate _ ?_)
      intro y hy
      rcases List.mem_cons.mp hy with rfl | hy
      · exact (h.titles _ (by simp)).1
      · rcases List.mem_cons.mp hy with rfl | hy
        · exact (h.titles _ (by simp)).1
        · exact hform y hy
  · obtain ⟨r, hr, rfl⟩ := hl
    exact o _ (oneLine_intercalate _ (fun y hy => (h.rows r hr y hy).1))
  · rw [hl.2]; simp

theorem log_lines (n : Numbers F) (w : WordClass) (items : List (Item F)) (tables : List Table) (h1 : ∀ i ∈ items, i.Ok n w) (h2 : ∀ t ∈ tables, TableOk t) :
    fileLines (logText items tables) = (items.flatMap Item.lines).map (fun l => l ++ ['\n']) ++ (tables.flatMap tableLines).map (fun l => l ++ ['\n']) := by
  unfold logText
  rw [← List.map_append, List.flatMap_def]
  apply Props.Export.fileLines_closed
  intro l hl
  obtain ⟨t, ht, rfl⟩ := List.mem_map.mp hl
  refine ⟨t, rfl, ?_⟩
  rcases List.mem_append.mp ht with ht | ht
  · obtain ⟨i, hi, ht⟩ := List.mem_flatMap.mp ht
    exact item_lines n w i (h1 i hi) t ht
  · obtain ⟨i, hi, ht⟩ := List.mem_flatMap.mp ht
    exact table_lines i (h2 i hi) t ht

/-- C76: LTSpiceLogReader on a whole log. The steps are counted and their variables collected as C49 says; measurements written as single lines are
read (name, value, and interval or point) as long as no step has been seen, the last one of a name being kept; every Fourier table is recorded under
its signal in the order of the file, with the number of the step it belongs to; the tables of measurements are read as C54 says. -/
theorem C76_log (n : Numbers F) (w : WordClass) (conv : Str → V) (given : Dict (List V)) (items : List (Item F)) (tables : List Table) (hi : ∀ i ∈ items, i.Ok n w)
    (ht : ∀ t ∈ tables, TableOk t ∧ t.WF (fun x => (n.int x).isSome)) (hnd : ((tables.flatMap Table.titles).map lower).Nodup) :
    ∃ r : Result V F, readLog n w conv given true (logText items tables) = .ok r ∧
      r.steps.count = given.length + (stepsOf items).countP hasAssign ∧
      (∀ k, column r.steps.stepset k = column given k ++ (stepsOf items).flatMap (Props.LogRead.assigned conv k)) ∧
      (∀ t ∈ tables, t.rows ≠ [] → ∀ k title, t.titles[k]? = some title → r.dataset.lookup (lower title) = some (t.rows.map (fun q => conv (q.2.getD k [])))) ∧
      (∀ k, k ∉ (tables.flatMap Table.titles).map lower → r.dataset.lookup k =
        if given = [] then (((measured items).reverse.find? (fun c => lower c.1 = k)).map (fun c => [conv c.2])) else none) ∧
      (∀ sig, r.fourier.lookup (some sig) = if fourierOf sig given.length items = [] then none else some (fourierOf sig given.length items)) := by
  obtain ⟨s', a1, a2, a3, a4, a5, a6⟩ := lines_items n w conv items
    ⟨Steps.new given, [], none, n.ofInt 0, n.ofInt 0, [], .normal⟩ rfl hi
  have hl : lines n w conv (fileLines (logText items tables)) ⟨Steps.new given, [], none, n.ofInt 0, n.ofInt 0, [], .normal⟩ =
      .ok (s', (tables.flatMap tableLines).map (fun l => l ++ ['\n'])) := by
    rw [log_lines n w items tables hi (fun t h => (ht t h).1), a1, lines_tables n w conv tables s' a2]
  have hmap : ((tables.flatMap tableLines).map (fun l => l ++ ['\n'])).map toMLine = tables.flatMap Table.lines := by
    clear hl a1 hnd
    induction tables with
    | nil => rfl
    | cons t ts ih =>
      rw [List.flatMap_cons, List.map_append, List.map_append, toMLine_table t (ht t (by simp)).1, ih (fun q hq => ht q (by simp [hq])), List.flatMap_cons]
  obtain ⟨d', c1, c2, c3⟩ := Props.LogRead.C54_measurement_tables conv (fun x => (n.int x).isSome) s'.dataset tables (fun t h => (ht t h).2) hnd
  refine ⟨⟨s'.steps, d', s'.fourier⟩, ?_, a3, a4, c2, ?_, ?_⟩
  · unfold readLog
    rw [hl]
    simp only
    rw [if_pos trivial, hmap, c1]
  · intro k hk
    show d'.lookup k = _
    rw [c3 k hk, a5, lookup_putMeasures]
    show (_ : Option _).or none = _
    rw [Option.or_none]
    by_cases hg : given = []
    · rw [if_pos hg, if_pos (by rw [hg]; rfl)]
    · rw [if_neg hg, if_neg (by
        show ¬ given.length = 0
        rwa [List.length_eq_zero_iff])]
      simp
  · intro sig
    have := a6 sig
    exact this

/-- C76: with read_measures = False the tables are not read: only the lines before them are. -/
theorem C76_without_tables (n : Numbers F) (w : WordClass) (conv : Str → V) (given : Dict (List V)) (items : List (Item F)) (tables : List Table)
    (hi : ∀ i ∈ items, i.Ok n w) (ht : ∀ t ∈ tables, TableOk t) (r : Result V F) (hr : readLog n w conv given true (logText items []) = .ok r) :
    readLog n w conv given false (logText items tables) = .ok r := by
  obtain ⟨s', a1, a2, _⟩ := lines_items n w conv items ⟨Steps.new given, [], none, n.ofInt 0, n.ofInt 0, [], .normal⟩ rfl hi
  have h2 := lines_tables n w conv [] s' a2
  have e0 := log_lines n w items [] hi (by simp)
  unfold readLog at hr ⊢
  rw [log_lines n w items tables hi ht, a1, lines_tables n w conv tables s' a2]
  rw [e0, a1, h2] at hr
  exact hr

/-! ### Examples and limits -/

/-- Numbers kept as they are written. -/
def num : Numbers Str where
  float t := if t ≠ [] ∧ t.all numChar then some t else none
  int := Model.PyStr.parseInt
  ofInt := Model.PyStr.showInt

def w0 : WordClass := Props.CompLine.ascii

def row1 : Row :=
  ⟨"    ".toList, "1".toList, "  \t ".toList, "3.000e+7".toList, "\t ".toList, "4.977e+0".toList, "\t ".toList, "1.000e+0".toList, "\t   ".toList, "89.76".toList, true, "\t ".toList, "0.00".toList, true, []⟩

def harm1 : Harmonic Str := ⟨1, "3.000e+7".toList, "4.977e+0".toList, "1.000e+0".toList, "89.76".toList, "0.00".toList⟩

def block1 : Block :=
  ⟨some "33.69".toList, "V(a)".toList, "0.0322249".toList, 1, "\tFrequency\t Fourier".toList, " Number \t  [Hz]".toList, [row1],
    ⟨" Distortion: ".toList, "0".toList, "959049".toList, "%".toList⟩, ⟨" Distortion:   ".toList, "4".toList, "110027".toList, "%".toList⟩⟩

def data1 : Fourier Str := ⟨some "V(a)".toList, "33.69".toList, "0.0322249".toList, some "0.959049".toList, some "4.110027".toList, [harm1], 7⟩

def meas1 : Measure := ⟨"vout_rms".toList, some (" ".toList, "RMS(v(out))".toList), "1.41109".toList, .interval "FROM".toList "0".toList "TO".toList "0.001".toList, []⟩

def items1 : List (Item Str) :=
  [.other "WARNING: Less than two connections to node a.".toList, .other [], .fourier block1 data1, .measure meas1,
   .step [.assign "R1".toList "1".toList], .fourier block1 data1, .measure meas1, .step [.assign "R1".toList "2".toList]]

def table1 : Table := ⟨"Gain".toList, "  step".toList, "Max(V(out))".toList, .interval, [("1".toList, ["0.5".toList, "0".toList, "1".toList]), ("2".toList, ["0.7".toList, "0".toList, "1".toList])], 1⟩

theorem row1_ok : row1.Ok := by
  refine ⟨⟨?_, ?_, ?_⟩, ?_, ⟨by decide, by decide⟩, ⟨'1', [], rfl, by decide⟩⟩
  · unfold Blank; decide
  · unfold Blank; decide
  · unfold Blank; decide
  · unfold Word; decide

theorem block1_ok : block1.Ok := by
  refine ⟨?_, ⟨?_, by decide, by decide, by decide⟩, ⟨?_, by decide⟩, ⟨?_, ?_⟩, ?_, ?_, ?_⟩
  · intro p hp
    have : p = "33.69".toList := (Option.some.inj hp).symm
    subst this
    unfold Word
    decide
  · unfold OneLine; decide
  · unfold Word; decide
  · unfold OneLine; decide
  · unfold OneLine; decide
  · intro r hr; rw [show block1.rows = [row1] from rfl, List.mem_singleton] at hr; subst hr; exact row1_ok
  · exact ⟨⟨by unfold OneLine; decide, by decide⟩, by decide, by decide, ⟨by unfold OneLine; decide, by intro c hc; rw [show c = '%' from (Option.some.inj hc).symm]; decide⟩⟩
  · exact ⟨⟨by unfold OneLine; decide, by decide⟩, by decide, by decide, ⟨by unfold OneLine; decide, by intro c hc; rw [show c = '%' from (Option.some.inj hc).symm]; decide⟩⟩

theorem block1_means : block1.Means num data1 := by
  refine ⟨rfl, .inr ⟨_, rfl, by decide⟩, by decide, ?_, ⟨_, rfl, by decide⟩, ⟨_, rfl, by decide⟩⟩
  exact .cons ⟨by decide, by decide, by decide, by decide, by decide, by decide⟩ .nil

theorem meas1_ok : meas1.Ok w0 := by
  refine ⟨by decide, ?_, ?_, ?_, by unfold Blank; decide, by decide⟩
  · intro e he
    have : e = (" ".toList, "RMS(v(out))".toList) := (Option.some.inj he).symm
    subst this
    unfold Blank OneLine
    decide
  · unfold ValueChar; decide
  · show _ ∧ _ ∧ _ ∧ _
    unfold NumChar; decide

/-- The hypotheses of C76_log are met by this log with warnings, Fourier tables before and after a step, single-line measurements and a table. -/
theorem C76_sample : (∀ i ∈ items1, i.Ok num w0) ∧ (∀ t ∈ [table1], TableOk t ∧ t.WF (fun x => (num.int x).isSome)) ∧
    (([table1].flatMap Table.titles).map lower).Nodup ∧ (stepsOf items1).countP hasAssign = 2 ∧
    fourierOf "V(a)".toList 0 items1 = [{ data1 with step := -1 }, { data1 with step := 0 }] ∧
    measured items1 = [("vout_rms".toList, "1.41109".toList), ("vout_rms_FROM".toList, "0".toList), ("vout_rms_TO".toList, "0.001".toList)] := by
  refine ⟨?_, ?_, by decide, by decide, rfl, rfl⟩
  · intro i hi
    simp only [items1, List.mem_cons, List.not_mem_nil, or_false] at hi
    rcases hi with rfl | rfl | rfl | rfl | rfl | rfl | rfl | rfl
    · refine ⟨by unfold OneLine; decide, by decide, ?_⟩
      rintro ⟨n, hd, v, r, e, _⟩
      have : '=' ∈ "WARNING: Less than two connections to node a.".toList := by rw [e]; simp
      exact absurd this (by decide)
    · refine ⟨by unfold OneLine; decide, by decide, ?_⟩
      rintro ⟨n, hd, v, r, e, _⟩
      have : '=' ∈ ([] : Str) := by rw [e]; simp
      exact absurd this (by decide)
    · exact ⟨block1_ok, block1_means⟩
    · exact meas1_ok
    · intro t ht; rw [List.mem_singleton] at ht; subst ht; exact by unfold Tok.Clean; decide
    · exact ⟨block1_ok, block1_means⟩
    · exact meas1_ok
    · intro t ht; rw [List.mem_singleton] at ht; subst ht; exact by unfold Tok.Clean; decide
  · intro t ht
    rw [List.mem_singleton] at ht
    subst ht
    refine ⟨⟨by unfold OneLine; decide, by unfold OneLine; decide, by unfold OneLine; decide, by decide⟩, by decide, by decide⟩

/-- Limit: any line with a word, perhaps a colon and text, and an equal sign is taken for a measurement, warnings too. -/
theorem C76_warning : (readLog num w0 id [] true "WARNING: node n1 has gmin=1e-12\n".toList).toOption.map (fun r => r.dataset) =
    some [("warning".toList, ["1e-12".toList])] := by decide +kernel

/-- Limit: the exponent of a distortion is not read. -/
theorem C76_exponent : (percent num "Total Harmonic Distortion:   1.20e-05%".toList).toOption = some "1.20".toList := by decide +kernel

/-- Limit: a distortion without decimals (and fewer than three digits) raises AttributeError. -/
theorem C76_whole_percent : ¬ (percent num "Total Harmonic Distortion: 5%".toList).toOption.isSome ∧
    searchNumber "Total Harmonic Distortion: 5%".toList = none := by decide +kernel

/-- Limit: any line that starts with `Harmonic` begins a table: two lines later the reader fails on the text of the log. -/
theorem C76_harmonic_line : (readLog num w0 id [] true "Harmonic balance disabled.\nDate: today\nTotal elapsed time: 1 seconds.\n".toList).toOption.isNone = true := by decide +kernel

/-- Limit: with steps given by the caller, single-line measurements are not read at all. -/
theorem C76_given_steps : (readLog num w0 id [("r".toList, ["1".toList])] true "gain: a/b=2\n".toList).toOption.map (fun r => r.dataset) = some [] ∧
    (readLog num w0 id [] true "gain: a/b=2\n".toList).toOption.map (fun r => r.dataset) = some [("gain".toList, ["2".toList])] := by decide +kernel

/-- Limit: measurements written before the first step are kept beside those of the tables. -/
theorem C76_before_steps : (readLog num w0 id [] true "gain: a/b=2\n.step r=1\nother: c=3\n".toList).toOption.map (fun r => (r.steps.count, r.dataset)) =
    some (1, [("gain".toList, ["2".toList])]) := by decide +kernel

end Props.LogFile
