import Verif.Lemmas.CompRange

/-! The parameters of a sub-circuit instance: lazy, but none of the shorter ways to read a value goes on. -/
namespace Lemmas.CompLine
open Model.Regex Lemmas.Regex Model.CompLine
open Model.PyStr (isSpace)
open Spec.ParamList (Item Word Blank)

variable (w : WordClass)

/-- What can follow an item: another one, or the end of the line. -/
def Goes (t : St) : Prop := (∃ t' z : St, t'.rest = t.rest ∧ Run commentRe t' z) ∨ ∃ z, Run (instItem w) t z

/-- The text before an equal sign is blanks, a name and blanks: not when it ends a value and a name follows. -/
theorem no_name {q P blanks comment e a1 a2 a3 z : Str} (hq : q ≠ []) (hl : ∀ c, q.getLast? = some c → isSpace c = false) (hqc : ∀ c ∈ q, c ∉ ['=', ';', '\\'])
    (hB : Begins w P) (hE : EndOk blanks comment e) (p1 : ∀ c ∈ a1, isSpace c = true) (p2 : ∀ c ∈ a2, w.word c = true) (p3 : ∀ c ∈ a3, isSpace c = true)
    (htext : q ++ (P ++ (blanks ++ comment ++ e)) = (a1 ++ (a2 ++ a3)) ++ '=' :: z) : False := by
  obtain ⟨L1, x, hLx⟩ : ∃ L1 x, q = L1 ++ [x] := ⟨q.dropLast, q.getLast hq, (List.dropLast_append_getLast hq).symm⟩
  have hx : isSpace x = false := hl x (by rw [hLx, List.getLast?_concat])
  have p2' : ∀ c ∈ a2, isSpace c = false := fun c hc => (w.not c (p2 c hc)).1
  have noeq : ∀ c ∈ a1 ++ (a2 ++ a3), c ≠ '=' ∧ c ≠ ';' := by
    intro c hc
    simp only [List.mem_append] at hc
    have bl : isSpace c = true → c ≠ '=' ∧ c ≠ ';' := by
      intro h; constructor <;> (rintro rfl; revert h; decide)
    rcases hc with m | m | m
    · exact bl (p1 c m)
    · have := p2 c m
      constructor
      · rintro rfl; rw [eq_not_word] at this; simp at this
      · rintro rfl; rw [semi_not_word] at this; simp at this
    · exact bl (p3 c m)
  rcases hB with rfl | ⟨g, n, b, r, rfl, hg, hgs, hn, hns, hb⟩
  · rw [List.nil_append] at htext
    rcases hE.comment with rfl | ⟨hbl, cm, rfl, _⟩
    · have : '=' ∈ q ++ (blanks ++ [] ++ e) := by rw [htext]; simp
      simp only [List.mem_append, List.append_nil] at this
      rcases this with m | m | m
      · exact (by simpa using hqc _ m : False)
      · have := hE.blank _ m; revert this; decide
      · have := hE.last _ m; revert this; decide
    · have e3 : (a1 ++ (a2 ++ a3)) ++ '=' :: z = (q ++ blanks) ++ (';' :: cm ++ e) := by rw [← htext]; simp
      rcases split_suffix e3 with ⟨d, f1, f2⟩ | ⟨d, hd, f1, f2⟩
      · cases d with
        | nil => simp at f2
        | cons y d => simp at f2; exact (noeq y (by rw [f1]; simp)).2 f2.1.symm
      · obtain ⟨y, d', rfl⟩ := List.exists_cons_of_ne_nil hd
        simp at f2
        have : '=' ∈ q ++ blanks := by rw [f1, f2.1]; simp
        rcases List.mem_append.1 this with m | m
        · exact (by simpa using hqc _ m : False)
        · have := hE.blank _ m; revert this; decide
  · have e3 : (a1 ++ (a2 ++ a3)) ++ '=' :: z = (q ++ g ++ n ++ b) ++ ('=' :: (r ++ (blanks ++ comment ++ e))) := by rw [← htext]; simp
    have hno2 : ∀ c ∈ q ++ g ++ n ++ b, c ≠ '=' := by
      intro c hc
      simp only [List.mem_append] at hc
      rcases hc with ((m | m) | m) | m
      · have := hqc c m; simp at this; exact this.1
      · have := hgs c m; rintro rfl; revert this; decide
      · rintro rfl
        have := hns _ m; rw [eq_not_word] at this; simp at this
      · have := hb c m; rintro rfl; revert this; decide
    have same : a1 ++ (a2 ++ a3) = q ++ g ++ n ++ b := by
      rcases split_suffix e3 with ⟨d, f1, f2⟩ | ⟨d, hd, f1, f2⟩
      · cases d with
        | nil => simpa using f1
        | cons y d => simp at f2; exact absurd f2.1.symm (noeq y (by rw [f1]; simp)).1
      · obtain ⟨y, d', rfl⟩ := List.exists_cons_of_ne_nil hd
        simp at f2
        exact absurd f2.1.symm (hno2 y (by rw [f1]; simp))
    obtain ⟨y, n', rfl⟩ := List.exists_cons_of_ne_nil hn
    exact three_blocks (L1 := L1) (g := g) (L2 := n' ++ b) (x := x) (y := y) (by rw [same, hLx]; simp) p1 p2' p3 hx (w.not y (hns y (by simp))).1 hg hgs

/-- Blanks and then another item or the end: not in the middle of a value. -/
theorem mid_none {q P blanks comment e : Str} (hq : q ≠ []) (hl : ∀ c, q.getLast? = some c → isSpace c = false) (hqc : ∀ c ∈ q, c ∉ ['=', ';', '\\'])
    (hB : Begins w P) (hE : EndOk blanks comment e) {s t : St} (hs : s.rest = q ++ (P ++ (blanks ++ comment ++ e))) (h1 : Run (.star sp) s t) (h2 : Goes w t) : False := by
  obtain ⟨a1, b1, p1, _⟩ := run_star_cls h1
  have htx := b1.text
  rw [hs] at htx
  rcases h2 with ⟨t', z, ht', hz⟩ | ⟨z, hz⟩
  · obtain ⟨L1, x, hLx⟩ : ∃ L1 x, q = L1 ++ [x] := ⟨q.dropLast, q.getLast hq, (List.dropLast_append_getLast hq).symm⟩
    obtain ⟨a, c, r, f1, f2, f3⟩ := first_visible q ⟨x, by rw [hLx]; simp, hl x (by rw [hLx, List.getLast?_concat])⟩
    have hc := hqc c (by rw [f1]; simp)
    simp at hc
    have e1 : a1 ++ t.rest = a ++ c :: (r ++ (P ++ (blanks ++ comment ++ e))) := by rw [← htx, f1]; simp
    have : ∃ d, t.rest = d ++ c :: (r ++ (P ++ (blanks ++ comment ++ e))) ∧ ∀ x ∈ d, isSpace x = true := by
      rcases split_suffix e1 with ⟨d, g1, g2⟩ | ⟨d, hd, g1, g2⟩
      · cases d with
        | nil => exact ⟨[], by simpa using g2.symm, by simp⟩
        | cons y d =>
          simp at g2
          have := p1 y (by rw [g1]; simp)
          rw [← g2.1, f3] at this; simp at this
      · exact ⟨d, g2, fun x hx => f2 x (by rw [g1]; simp [hx])⟩
    obtain ⟨d, g1, g2⟩ := this
    rcases comment_head hz d c _ (by rw [ht', g1]) g2 f3 with h | h
    · exact hc.2.1 h
    · exact hc.2.2 h
  · unfold instItem at hz
    cases hz with
    | seq r1 r2 =>
      cases r2 with
      | seq r3 r4 =>
        cases r4 with
        | seq r5 _ =>
          obtain ⟨a2, _, b2, p2, _⟩ := run_plus_cls r1
          obtain ⟨a3, b3, p3, _⟩ := run_star_cls r3
          cases r5 with
          | @cls _ _ d z hz hd =>
            simp at hd; subst hd
            exact no_name w hq hl hqc hB hE p1 p2 p3 (z := z) (by rw [htx, b2.text, b3.text, hz]; simp)

/-- The value of an item: what may open it, what it holds, what may close it. -/
theorem value_parts (V : Str) (hV : V ≠ []) : ∃ o body c : Str, V = o ++ (body ++ c) ∧ (o = [] ∧ (∀ x, V.head? = some x → x ∉ ['\'', '"', '{']) ∨ ∃ x, o = [x] ∧ x ∈ ['\'', '"', '{']) ∧
    ((∃ y, c = [y] ∧ y ∈ ['\'', '"', '}']) ∨ (c = [] ∧ ∀ y, body.getLast? = some y → y ∉ ['\'', '"', '}'])) := by
  have main : ∀ U : Str, ∃ body c : Str, U = body ++ c ∧ ((∃ y, c = [y] ∧ y ∈ ['\'', '"', '}']) ∨ (c = [] ∧ ∀ y, body.getLast? = some y → y ∉ ['\'', '"', '}'])) := by
    intro U
    rcases List.eq_nil_or_concat U with rfl | ⟨z, y, e⟩
    · exact ⟨[], [], rfl, .inr ⟨rfl, by simp⟩⟩
    · rw [List.concat_eq_append] at e
      by_cases hy : y ∈ ['\'', '"', '}']
      · exact ⟨z, [y], e, .inl ⟨y, rfl, hy⟩⟩
      · refine ⟨U, [], by simp, .inr ⟨rfl, ?_⟩⟩
        intro x hx
        rw [e, List.getLast?_concat] at hx
        simp at hx; rw [← hx]; exact hy
  obtain ⟨x, V', rfl⟩ := List.exists_cons_of_ne_nil hV
  by_cases hx : x ∈ ['\'', '"', '{']
  · obtain ⟨body, c, e, h⟩ := main V'
    exact ⟨[x], body, c, by rw [e]; rfl, .inr ⟨x, rfl, hx⟩, h⟩
  · obtain ⟨body, c, e, h⟩ := main (x :: V')
    exact ⟨[], body, c, by rw [e]; rfl, .inl ⟨rfl, by intro y hy; simp at hy; rw [← hy]; exact hx⟩, h⟩

/-- One item. `G` are the blanks it takes with it. -/
theorem go_item (K : St → Option St) (hK : ∀ t y, K t = some y → Goes w t) (i : Str × Item) (hi : ItemOk w.word i) (hnl : '\n' ∉ valuesText i.2) (s : St) {P blanks comment e : Str}
    (hB : Begins w P) (hE : EndOk blanks comment e) (hs : s.rest = i.2.text ++ (P ++ (blanks ++ comment ++ e))) (R : Str) (x : St)
    (hk : go (.star sp) K (adv s i.2.text (P ++ (blanks ++ comment ++ e))) = some x) (hR : R = P ++ (blanks ++ comment ++ e)) : go (instItem w) K s = some x := by
  rw [← hR] at hs hk
  have hRh : ∀ c, R.head? = some c → isSpace c = true := by
    intro c hc
    rw [hR] at hc
    rcases hB with rfl | ⟨g, n, b, r, rfl, hg, hgs, _⟩
    · exact end_head hE c hc
    · obtain ⟨z, g', rfl⟩ := List.exists_cons_of_ne_nil hg
      simp at hc; rw [← hc]; exact hgs z (by simp)
  have hVne := values_ne i.2 hi.2.1
  have hVl : ∀ c, (valuesText i.2).getLast? = some c → isSpace c = false := by
    intro c hc
    refine item_ends i.2 hi.2.1 c ?_
    rw [item_text, show i.2.name ++ (i.2.b1 ++ '=' :: (i.2.b2 ++ valuesText i.2)) = (i.2.name ++ i.2.b1 ++ '=' :: i.2.b2) ++ valuesText i.2 by simp, List.getLast?_append, hc]; rfl
  have hVh : ∀ c, (valuesText i.2).head? = some c → isSpace c = false := by
    intro c hc
    obtain ⟨a, _, ha, _, ha2, _⟩ := Props.Params.word_ends _ hi.2.1.first
    have : (valuesText i.2).head? = some a := by
      unfold valuesText
      cases hq : i.2.first with
      | nil => rw [hq] at ha; simp at ha
      | cons y q => rw [hq] at ha; simpa using ha
    rw [this] at hc; simp at hc; rw [← hc]; exact ha2
  have hVc : ∀ c ∈ valuesText i.2, c ∉ ['=', ';', '\\'] := by
    intro c hc
    have := values_chars w i hi c hc
    have h2 := inParams_not w c (.inr (.inr (.inr this)))
    simp only [List.mem_cons, List.not_mem_nil, or_false, not_or]
    refine ⟨?_, h2.1, h2.2⟩
    rintro rfl
    simp only [paramChar, eq_not_word] at this
    revert this; decide
  obtain ⟨hname, hnw, hb1, hb2⟩ : i.2.name ≠ [] ∧ (∀ c ∈ i.2.name, w.word c = true) ∧ (∀ c ∈ i.2.b1, isSpace c = true) ∧ ∀ c ∈ i.2.b2, isSpace c = true :=
    ⟨Props.Params.word_ne_nil _ hi.2.1.name, hi.2.2.1, hi.2.1.b1, hi.2.1.b2⟩
  have htxt := item_text i.2
  generalize valuesText i.2 = V at hVne hVl hVh hVc hnl htxt
  generalize i.2.text = tx at htxt hs hk
  generalize i.2.name = n at hname hnw htxt
  generalize i.2.b1 = b1 at hb1 htxt
  generalize i.2.b2 = b2 at hb2 htxt
  subst htxt
  obtain ⟨o, body, c, eV, ho, hc⟩ := value_parts V hVne
  unfold instItem
  rw [go_seq]
  refine go_plus _ _ s n (b1 ++ ('=' :: (b2 ++ V)) ++ R) hname (by rw [hs]; simp) hnw ?_ x ?_
  · intro d hd
    cases b1 with
    | nil => simp at hd; rw [← hd]; exact eq_not_word w
    | cons y b1 =>
      simp at hd
      have := hb1 y (by simp)
      rw [← hd]
      by_contra hcc
      have e := (w.not y ((Bool.not_eq_false _).mp hcc)).1
      rw [e] at this; simp at this
  rw [go_seq]
  refine go_star _ _ _ b1 ('=' :: (b2 ++ V) ++ R) (by simp [adv]) hb1 (by intro d hd; simp at hd; rw [← hd]; decide) x ?_
  rw [go_seq]
  unfold lit
  rw [go_cls _ _ _ '=' ((b2 ++ V) ++ R) rfl (by decide), go_seq]
  refine go_star _ _ _ b2 (V ++ R) (by simp [adv]) hb2 ?_ x ?_
  · intro d hd
    obtain ⟨y, V', e⟩ := List.exists_cons_of_ne_nil hVne
    rw [e] at hd; simp at hd
    rw [← hd]; exact hVh y (by rw [e]; rfl)
  rw [adv_adv, adv_adv, adv_adv, go_seq]
  -- the opening quote or brace
  suffices h : go (.seq (.lazy dot) (.seq (opt (.cls (fun c => c = '\'' || c = '"' || c = '}'))) (.star sp))) K (adv s (n ++ b1 ++ ['='] ++ b2 ++ o) (body ++ c ++ R)) = some x by
    rcases ho with ⟨rfl, ho⟩ | ⟨y, rfl, hy⟩
    · rw [go_opt_skip]
      · rw [← h, eV]; simp
      · apply go_cls_none
        intro d hd
        simp only [adv] at hd
        have : V.head? = some d := by
          obtain ⟨y, V', e⟩ := List.exists_cons_of_ne_nil hVne
          rw [e] at hd ⊢; simpa using hd
        have := ho d this
        simp at this
        simp [this]
    · show (go (.cls _) _ _).or _ = _
      rw [go_cls _ _ _ y (body ++ c ++ R) (by simp [adv, eV]) (by
        simp only [List.mem_cons, List.not_mem_nil, or_false] at hy
        rcases hy with rfl | rfl | rfl <;> decide), adv_adv, show n ++ (b1 ++ (['='] ++ b2)) ++ [y] = n ++ b1 ++ ['='] ++ b2 ++ [y] by simp, h]
      rfl
  rw [go_seq]
  have hsub : ∀ d ∈ body ++ c, d ∈ V := fun d hd => by rw [eV]; exact List.mem_append.2 (.inr hd)
  have closing : ∀ y : Char, y ∈ ['\'', '"', '}'] → (y = '\'' || y = '"' || y = '}') = true := by
    intro y hy
    simp only [List.mem_cons, List.not_mem_nil, or_false] at hy
    rcases hy with rfl | rfl | rfl <;> decide
  refine go_lazy _ _ body (c ++ R) _ (by simp [adv]) ?_ ?_ x ?_
  · intro d hd
    have : d ≠ '\n' := by rintro rfl; exact hnl (hsub _ (by simp [hd]))
    simpa using this
  · -- nothing shorter goes on
    intro u q euq hq
    rw [adv_adv]
    apply go_none
    intro t ht
    cases hkt : K t with
    | none => rfl
    | some y =>
      exfalso
      have hg := hK t y hkt
      have hqV : ∀ d ∈ q ++ c, d ∈ V := fun d hd => hsub d (by
        rw [euq]
        simp only [List.mem_append] at hd ⊢
        tauto)
      have hlast : ∀ (p r : Str), q ++ c = p ++ r → r ≠ [] → ∀ d, r.getLast? = some d → isSpace d = false := by
        intro p r e1 hr d hd
        refine hVl d ?_
        rw [eV, euq, List.append_assoc u, e1, ← List.append_assoc u, ← List.append_assoc o, List.getLast?_append, hd]; rfl
      cases ht with
      | seq h1 h2 =>
        cases h1 with
        | right h1 =>
          cases h1
          exact mid_none w (q := q ++ c) (by simp [hq]) (fun d hd => hlast [] (q ++ c) rfl (by simp [hq]) d hd) (fun d hd => hVc d (hqV d hd)) hB hE (by simp [adv, hR]) h2 hg
        | left h1 =>
          cases h1 with
          | @cls _ _ d z hz hd =>
            obtain ⟨y, q', rfl⟩ := List.exists_cons_of_ne_nil hq
            have hz' : y :: (q' ++ c ++ R) = d :: z := by rw [← hz]; simp [adv]
            simp only [List.cons.injEq] at hz'
            obtain ⟨rfl, hz2⟩ := hz'
            have hne : q' ++ c ≠ [] := by
              intro e0
              obtain ⟨e1, e2⟩ := List.append_eq_nil_iff.1 e0
              rcases hc with ⟨y', hc, _⟩ | ⟨_, hc⟩
              · rw [hc] at e2; simp at e2
              · have := hc y (by rw [euq, e1, List.getLast?_concat])
                simp at this hd
                tauto
            refine mid_none w (q := q' ++ c) hne (fun p hp => hlast [y] (q' ++ c) rfl hne p hp) (fun p hp => hVc p (hqV p (by
              simp only [List.mem_append] at hp
              simp only [List.cons_append, List.mem_cons, List.mem_append]; exact .inr hp))) hB hE (s := St.next _ z) ?_ h2 hg
            show z = _
            rw [← hz2, hR]
  · -- the closing quote or brace
    rw [adv_adv, go_seq]
    have e9 : n ++ b1 ++ ['='] ++ b2 ++ o ++ body ++ c = n ++ (b1 ++ '=' :: (b2 ++ V)) := by rw [eV]; simp
    rcases hc with ⟨y, rfl, hy⟩ | ⟨rfl, hc⟩
    · show (go (.cls _) _ _).or _ = _
      rw [go_cls _ _ _ y R (by simp [adv]) (closing y hy), adv_adv, e9, hk]
      rfl
    · rw [go_opt_skip]
      · rw [List.nil_append]
        rw [List.append_nil] at e9
        rw [e9]; exact hk
      · apply go_cls_none
        intro d hd
        simp only [adv, List.nil_append] at hd
        have := hRh d hd
        by_contra hcc
        simp only [Bool.not_eq_false, Bool.or_eq_true, decide_eq_true_eq] at hcc
        rcases hcc with (rfl | rfl) | rfl <;> (revert this; decide)

/-- An item begins with a word character. -/
theorem item_head {s t : St} (h : Run (instItem w) s t) : ∃ c r, s.rest = c :: r ∧ w.word c = true := by
  unfold instItem at h
  cases h with
  | seq r1 _ =>
    obtain ⟨a, hne, b, p, _⟩ := run_plus_cls r1
    obtain ⟨c, a', rfl⟩ := List.exists_cons_of_ne_nil hne
    exact ⟨c, a' ++ _, b.text, p c (by simp)⟩

theorem item_none (K : St → Option St) (s : St) (h : ∀ c, s.rest.head? = some c → w.word c = false) : go (instItem w) K s = none := by
  apply go_none
  intro t ht
  obtain ⟨c, r, e, hc⟩ := item_head w ht
  have := h c (by rw [e]; rfl)
  rw [hc] at this; simp at this

theorem more_none (k : St → Option St) (n : Nat) (s : St) (h : ∀ c, s.rest.head? = some c → w.word c = false) : more (go (instItem w)) k n s = k s := by
  cases n with
  | zero => rfl
  | succ n =>
    simp only [more]
    rw [item_none w _ s h]; rfl

/-- No comment begins right at the semicolon: a blank has to come first. -/
theorem no_comment_here {s t : St} {r : Str} (hs : s.rest = ';' :: r) (h : Run commentRe s t) : False := by
  unfold commentRe at h
  cases h with
  | seq h1 h2 =>
    cases h1 with
    | left h1 =>
      cases h1 with
      | seq h3 _ =>
        obtain ⟨a, hne, b, p, _⟩ := run_plus_cls h3
        obtain ⟨c, a', rfl⟩ := List.exists_cons_of_ne_nil hne
        have := b.text
        rw [hs] at this
        simp at this
        have h5 := p c (by simp)
        rw [← this.1] at h5; revert h5; decide
    | right h1 =>
      cases h1
      cases h2 with
      | seq h3 h4 =>
        cases h3 with
        | left h3 =>
          cases h3 with
          | @cls _ _ d z hz hd =>
            rw [hs] at hz
            simp at hz hd
            rw [hd] at hz
            exact absurd hz.1 (by decide)
        | right h3 =>
          cases h3
          cases h4 with
          | seq h5 h6 =>
            obtain ⟨a, b, p, _⟩ := run_star_cls h5
            have ht := b.text
            rw [hs] at ht
            cases a with
            | cons c a =>
              simp at ht
              have h7 := p c (by simp)
              rw [← ht.1] at h7; revert h7; decide
            | nil =>
              simp at ht
              cases h6 with
              | eol he =>
                rw [← ht] at he
                simp at he

theorem goes_of_more {k : St → Option St} (hk : ∀ t y, k t = some y → ∃ t' z : St, t'.rest = t.rest ∧ Run commentRe t' z) (n : Nat) (t y : St)
    (h : more (go (instItem w)) k n t = some y) : Goes w t := by
  cases n with
  | zero => exact .inl (hk t y h)
  | succ n =>
    simp only [more, Option.or_eq_some_iff] at h
    rcases h with h | ⟨_, h⟩
    · obtain ⟨z, hz, _⟩ := go_sound _ _ _ _ h
      exact .inr ⟨z, hz⟩
    · exact .inl (hk t y h)

theorem semi_head {comment e : Str} {cm : Str} (hc : comment = ';' :: cm) : ∀ c, (comment ++ e).head? = some c → isSpace c = false := by
  intro c h
  rw [hc] at h
  simp at h
  rw [← h]; decide

/-- The items, one after the other; `b` is what the last one takes of the end of the line. -/
theorem items_go (k : St → Option St) (hk : ∀ t y, k t = some y → ∃ t' z : St, t'.rest = t.rest ∧ Run commentRe t' z)
    (hkc : ∀ (t : St) (b c e : Str), EndOk b c e → t.rest = b ++ c ++ e → (k t).isSome = true) {blanks comment e : Str} (hE : EndOk blanks comment e) :
    ∀ (l : List (Str × Item)) (i : Str × Item) (s : St) (K : St → Option St), (∀ j ∈ i :: l, ItemOk w.word j ∧ '\n' ∉ valuesText j.2) →
      s.rest = i.2.text ++ (itemsText l ++ (blanks ++ comment ++ e)) → (∀ t, K t = none ∨ ∃ n, K t = more (go (instItem w)) k n t) →
      (∀ t, t.rest.length < s.rest.length → ∃ n, t.rest.length ≤ n ∧ K t = more (go (instItem w)) k n t) →
      ∃ b rest x, blanks ++ comment ++ e = b ++ rest ∧ (∀ c ∈ b, isSpace c = true) ∧ go (instItem w) K s = some x ∧ k (adv s (i.2.text ++ itemsText l ++ b) rest) = some x := by
  intro l
  induction l with
  | nil =>
    intro i s K hi hs hK1 hK2
    have hgoes : ∀ t y, K t = some y → Goes w t := by
      intro t y h
      rcases hK1 t with g | ⟨n, g⟩
      · rw [g] at h; simp at h
      · exact goes_of_more w hk n t y (by rw [← g]; exact h)
    have e0 : itemsText ([] : List (Str × Item)) = [] := rfl
    rw [e0] at hs
    have hne : i.2.text ≠ [] := by
      rw [item_text]
      have := Props.Params.word_ne_nil _ (hi i (by simp)).1.2.1.name
      simp [this]
    have hpos : 0 < i.2.text.length := List.length_pos_iff.mpr hne
    have final : ∀ (b rest : Str), blanks ++ comment ++ e = b ++ rest → (∀ c ∈ b, isSpace c = true) → (∀ c, rest.head? = some c → w.word c = false) →
        (∃ b' c' e', EndOk b' c' e' ∧ rest = b' ++ c' ++ e') →
        (∀ x, K (adv s (i.2.text ++ b) rest) = some x → go (.star sp) K (adv s i.2.text (blanks ++ comment ++ e)) = some x) →
        ∃ b rest x, blanks ++ comment ++ e = b ++ rest ∧ (∀ c ∈ b, isSpace c = true) ∧ go (instItem w) K s = some x ∧ k (adv s (i.2.text ++ itemsText [] ++ b) rest) = some x := by
      intro b rest e1 hb hr ⟨b', c', e', hE', e2⟩ hstar
      obtain ⟨x, hx⟩ := Option.isSome_iff_exists.1 (hkc (adv s (i.2.text ++ b) rest) b' c' e' hE' e2)
      obtain ⟨n, _, hn⟩ := hK2 (adv s (i.2.text ++ b) rest) (by
        rw [hs]
        show rest.length < _
        have := congrArg List.length e1
        simp only [List.length_append] at this ⊢
        omega)
      rw [more_none w k n _ hr, hx] at hn
      refine ⟨b, rest, x, e1, hb, ?_, by rw [e0, List.append_nil]; exact hx⟩
      exact go_item w K hgoes i (hi i (by simp)).1 (hi i (by simp)).2 s (P := []) (.inl rfl) hE hs _ x (hstar x hn) rfl
    rcases hE.comment with hc | ⟨hbl, cm, hc, _⟩
    · refine final (blanks ++ e) [] (by rw [hc]; simp) ?_ (by simp) ⟨[], [], [], ⟨by simp, .inl rfl, by simp⟩, rfl⟩ ?_
      · intro c h
        rcases List.mem_append.1 h with g | g
        · exact hE.blank c g
        · exact hE.last c g
      · intro x hx
        refine go_star _ _ _ (blanks ++ e) [] (by simp [adv, hc]) ?_ (by simp) x ?_
        · intro c h
          rcases List.mem_append.1 h with g | g
          · exact hE.blank c g
          · exact hE.last c g
        · rw [adv_adv]; exact hx
    · obtain ⟨z, y, ez⟩ := (List.eq_nil_or_concat blanks).resolve_left hbl
      rw [List.concat_eq_append] at ez
      have hy : isSpace y = true := hE.blank y (by rw [ez]; simp)
      refine final z ([y] ++ comment ++ e) (by rw [ez]; simp) (fun c h => hE.blank c (by rw [ez]; simp [h])) ?_ ⟨[y], comment, e, ⟨by simpa using hy, ?_, hE.last⟩, rfl⟩ ?_
      · intro c h
        simp at h
        rw [← h]
        by_contra hcc
        have e := (w.not y ((Bool.not_eq_false _).mp hcc)).1
        rw [e] at hy; simp at hy
      · rcases hE.comment with g | ⟨_, g⟩
        · exact .inl g
        · exact .inr ⟨by simp, g⟩
      · intro x hx
        refine go_star_back _ _ _ z [y] (comment ++ e) (by simp [adv, ez]) (fun c h => hE.blank c (by rw [ez]; simp [h])) (by simpa using hy) (semi_head hc) ?_ x ?_
        · intro b d e1 hb
          have : b = [y] ∧ d = [] := by
            cases b with
            | nil => exact absurd rfl hb
            | cons q b =>
              simp at e1
              exact ⟨by rw [e1.1, e1.2.1], e1.2.2⟩
          obtain ⟨rfl, rfl⟩ := this
          rw [adv_adv]
          rcases hK1 (adv s (i.2.text ++ (z ++ [y])) ([] ++ (comment ++ e))) with g | ⟨n, g⟩
          · exact g
          · rw [g, more_none]
            · cases hq : k (adv s (i.2.text ++ (z ++ [y])) ([] ++ (comment ++ e))) with
              | none => rfl
              | some q =>
                obtain ⟨t', z', e3, hr⟩ := hk _ _ hq
                exact (no_comment_here (r := cm ++ e) (by rw [e3]; simp [adv, hc]) hr).elim
            · intro c h
              simp [adv, hc] at h
              rw [← h]; exact semi_not_word w
        · rw [adv_adv]
          simpa using hx
  | cons j l ih =>
    intro i s K hi hs hK1 hK2
    have hgoes : ∀ t y, K t = some y → Goes w t := by
      intro t y h
      rcases hK1 t with g | ⟨n, g⟩
      · rw [g] at h; simp at h
      · exact goes_of_more w hk n t y (by rw [← g]; exact h)
    have e0 : itemsText (j :: l) = j.1 ++ (j.2.text ++ itemsText l) := by simp [itemsText]
    have hj := (hi j (by simp)).1
    have hB : Begins w (itemsText (j :: l)) := (items_strictOk w (j :: l) (fun x hx => (hi x (List.mem_cons_of_mem _ hx)).1)).begins
    have hne : i.2.text ≠ [] := by
      rw [item_text]
      have := Props.Params.word_ne_nil _ (hi i (by simp)).1.2.1.name
      simp [this]
    have hpos : 0 < i.2.text.length := List.length_pos_iff.mpr hne
    have hnej : j.2.text ≠ [] := by
      rw [item_text]
      have := Props.Params.word_ne_nil _ hj.2.1.name
      simp [this]
    let t : St := adv s (i.2.text ++ j.1) (j.2.text ++ (itemsText l ++ (blanks ++ comment ++ e)))
    obtain ⟨n, hn, hKt⟩ := hK2 t (by
      rw [hs, e0]
      show (j.2.text ++ (itemsText l ++ (blanks ++ comment ++ e))).length < _
      simp only [List.length_append]
      omega)
    have hn0 : n ≠ 0 := by
      rintro rfl
      have : 0 < j.2.text.length := List.length_pos_iff.mpr hnej
      simp only [t, adv, List.length_append] at hn
      omega
    obtain ⟨n', rfl⟩ := Nat.exists_eq_succ_of_ne_zero hn0
    obtain ⟨b, rest, x, f1, f2, f3, f4⟩ := ih j t (fun u => if u.rest.length < t.rest.length then more (go (instItem w)) k n' u else none)
      (fun q hq => hi q (List.mem_cons_of_mem _ hq)) rfl (by
        intro u
        by_cases hu : u.rest.length < t.rest.length
        · exact .inr ⟨n', by simp only [if_pos hu]⟩
        · exact .inl (by simp only [if_neg hu])) (by
        intro u hu
        exact ⟨n', by omega, by simp only [if_pos hu]⟩)
    refine ⟨b, rest, x, f1, f2, ?_, ?_⟩
    · refine go_item w K hgoes i (hi i (by simp)).1 (hi i (by simp)).2 s hB hE hs _ x ?_ rfl
      refine go_star _ _ _ j.1 (j.2.text ++ (itemsText l ++ (blanks ++ comment ++ e))) (by simp [adv, e0]) hj.1.2 ?_ x ?_
      · intro c h
        rw [item_text] at h
        obtain ⟨q, m, eq⟩ := List.exists_cons_of_ne_nil (Props.Params.word_ne_nil _ hj.2.1.name)
        rw [eq] at h
        simp at h
        exact (w.not c (hj.2.2.1 c (by rw [eq, h]; simp))).1
      · rw [adv_adv]
        show K t = _
        rw [hKt]
        simp only [more]
        rw [f3]; rfl
    · rw [← f4]
      congr 1
      simp only [t]
      rw [adv_adv, e0]
      simp

/-- `params:` is not the name of a parameter. -/
theorem no_params_word {s t : St} {n b1 r : Str} (hs : s.rest = n ++ (b1 ++ '=' :: r)) (hn : ∀ c ∈ n, w.word c = true) (hb : ∀ c ∈ b1, isSpace c = true)
    (h : Run paramsWord s t) : False := by
  have hci : ∀ c : Char, Bare c → c.toNat < 128 → c ≠ '=' → ∀ s t : St, Run (ci c) s t → ∃ d : Char, Between s t [d] ∧ isSpace d = false ∧ d ≠ '=' := by
    intro c hc hl he s t h
    cases h with
    | @cls _ _ d z hz hd =>
      have := bare_ci c hc hl d hd
      refine ⟨d, ⟨hz, rfl⟩, this.1, ?_⟩
      rintro rfl
      simp only [Bool.or_eq_true, decide_eq_true_eq] at hd
      rcases hd with hd | hd
      · exact he hd.symm
      · exact he (hd.symm.trans (by decide))
  unfold paramsWord at h
  cases h with
  | seq h1 h =>
  cases h with
  | seq h2 h =>
  cases h with
  | seq h3 h =>
  cases h with
  | seq h4 h =>
  cases h with
  | seq h5 h =>
  cases h with
  | seq h6 h =>
  cases h with
  | seq h7 h =>
    obtain ⟨d1, g1, p1⟩ := hci 'P' (by unfold Bare; decide) (by decide) (by decide) _ _ h1
    obtain ⟨d2, g2, p2⟩ := hci 'A' (by unfold Bare; decide) (by decide) (by decide) _ _ h2
    obtain ⟨d3, g3, p3⟩ := hci 'R' (by unfold Bare; decide) (by decide) (by decide) _ _ h3
    obtain ⟨d4, g4, p4⟩ := hci 'A' (by unfold Bare; decide) (by decide) (by decide) _ _ h4
    obtain ⟨d5, g5, p5⟩ := hci 'M' (by unfold Bare; decide) (by decide) (by decide) _ _ h5
    obtain ⟨d6, g6, p6⟩ := hci 'S' (by unfold Bare; decide) (by decide) (by decide) _ _ h6
    cases h7 with
    | @cls _ _ d z hz hd =>
      simp at hd; subst hd
      have ht : n ++ (b1 ++ '=' :: r) = [d1, d2, d3, d4, d5, d6] ++ ':' :: z := by
        rw [← hs, g1.text, g2.text, g3.text, g4.text, g5.text, g6.text, hz]; rfl
      have hd' : ∀ c ∈ [d1, d2, d3, d4, d5, d6], isSpace c = false ∧ c ≠ '=' := by
        intro c hc
        simp only [List.mem_cons, List.not_mem_nil, or_false] at hc
        rcases hc with rfl | rfl | rfl | rfl | rfl | rfl <;> assumption
      have hcol : ¬ w.word ':' = true := by
        intro hc
        have := (w.not _ hc).2
        simp at this
      have hfirst : ∀ c, (b1 ++ '=' :: r).head? = some c → isSpace c = true ∨ c = '=' := by
        intro c hc
        cases b1 with
        | nil => simp at hc; exact .inr hc.symm
        | cons q b1 => simp at hc; exact .inl (hb c (by simp [hc]))
      rcases split_suffix ht with ⟨d, f1, f2⟩ | ⟨d, hd, f1, f2⟩
      · cases d with
        | nil =>
          rw [List.nil_append] at f2
          rcases hfirst ':' (by rw [← f2]; rfl) with g | g
          · revert g; decide
          · revert g; decide
        | cons q d =>
          simp at f2
          have := hn q (by rw [f1]; simp)
          rw [← f2.1] at this
          exact hcol this
      · obtain ⟨q, d', rfl⟩ := List.exists_cons_of_ne_nil hd
        have hq := hd' q (by rw [f1]; simp)
        rcases hfirst q (by rw [f2]; rfl) with g | g
        · rw [hq.1] at g; simp at g
        · exact hq.2 g

theorem params_word_head {s t : St} (h : Run paramsWord s t) : ∃ c r, s.rest = c :: r ∧ isSpace c = false ∧ c ≠ '=' ∧ c ≠ ';' := by
  unfold paramsWord at h
  cases h with
  | seq h1 _ =>
    cases h1 with
    | @cls _ _ d z hz hd =>
      refine ⟨d, z, hz, (bare_ci 'P' (by unfold Bare; decide) (by decide) d hd).1, ?_, ?_⟩
      · rintro rfl; revert hd; decide
      · rintro rfl; revert hd; decide

/-- After blanks, the parameters of an instance begin with a visible character. -/
theorem inst_params_head {s t : St} (h : Run (.seq (plus sp) (.seq (opt paramsWord) (.grp .params (plus (instItem w))))) s t) :
    ∃ b c r, b ≠ [] ∧ s.rest = b ++ c :: r ∧ (∀ x ∈ b, isSpace x = true) ∧ isSpace c = false ∧ c ≠ '=' ∧ c ≠ ';' := by
  cases h with
  | seq h1 h2 =>
    obtain ⟨b, hne, hb, hbs, _⟩ := run_plus_cls h1
    have htx := hb.text
    cases h2 with
    | seq h3 h4 =>
      cases h3 with
      | left h3 =>
        obtain ⟨c, r, e, g⟩ := params_word_head h3
        exact ⟨b, c, r, hne, by rw [htx, e], hbs, g⟩
      | right h3 =>
        cases h3
        cases h4 with
        | grp h4 =>
          unfold plus at h4
          cases h4 with
          | seq h5 _ =>
            obtain ⟨c, r, e, g⟩ := item_head w h5
            have hw := (w.not c g)
            refine ⟨b, c, r, hne, by rw [htx, e], hbs, hw.1, ?_, ?_⟩
            · rintro rfl; rw [eq_not_word] at g; simp at g
            · rintro rfl; rw [semi_not_word] at g; simp at g

/-- Blanks and a visible character: in one way only. -/
theorem blanks_visible {b b' : Str} {c c' : Char} {r r' : Str} (h : b ++ c :: r = b' ++ c' :: r') (hb : ∀ x ∈ b, isSpace x = true) (hb' : ∀ x ∈ b', isSpace x = true)
    (hc : isSpace c = false) (hc' : isSpace c' = false) : b = b' ∧ c = c' := by
  rcases split_suffix h with ⟨d, f1, f2⟩ | ⟨d, hd, f1, f2⟩
  · cases d with
    | nil => simp at f1 f2; exact ⟨f1, f2.1.symm⟩
    | cons q d =>
      simp at f2
      have := hb q (by rw [f1]; simp)
      rw [← f2.1, hc'] at this; simp at this
  · obtain ⟨q, d', rfl⟩ := List.exists_cons_of_ne_nil hd
    simp at f2
    have := hb' q (by rw [f1]; simp)
    rw [← f2.1, hc] at this; simp at this

theorem stuck_inst {s : St} (hs : Stuck s.rest) : ∀ t, ¬ Run (instRe w) s t := by
  intro t ht
  unfold instRe at ht
  cases ht with
  | seq h1 h2 =>
    cases h1 with
    | left h1 =>
      obtain ⟨b, c, r, hne, e, hbs, hc, hce, _⟩ := inst_params_head w h1
      rcases hs with ⟨c', r', e', hc', _⟩ | ⟨b', r', e', hb', hbs'⟩
      · have := blanks_visible (b := b) (b' := []) (e.symm.trans e') hbs (by simp) hc hc'
        exact hne this.1
      · have := blanks_visible (e.symm.trans e') hbs hbs' hc (by decide)
        exact hce this.2
    | right h1 =>
      cases h1
      rcases hs with ⟨c, r, e, hc, g1, g2⟩ | ⟨b, r, e, hb, hbs⟩
      · rcases comment_head h2 [] c r (by rw [e]; rfl) (by simp) hc with h | h
        · exact g1 h
        · exact g2 h
      · rcases comment_head h2 b '=' r (by rw [e]) hbs (by decide) with h | h
        · revert h; decide
        · revert h; decide

/-- The end of an instance: the group of the parameters, without the blanks before them. -/
theorem go_inst (items : List (Str × Item)) (hi : ∀ i ∈ items, ItemOk w.word i ∧ '\n' ∉ valuesText i.2) {blanks comment e : Str} (hE : EndOk blanks comment e) (s : St)
    (hs : s.rest = itemsText items ++ (blanks ++ comment ++ e)) :
    ∃ x b rest, go (instRe w) some s = some x ∧ blanks ++ comment ++ e = b ++ rest ∧ (∀ c ∈ b, isSpace c = true) ∧ s.pos ≤ x.pos ∧
      ((items = [] ∧ b = [] ∧ x.caps = s.caps) ∨
        ∃ g Q : Str, itemsText items = g ++ Q ∧ g ≠ [] ∧ (∀ c ∈ g, isSpace c = true) ∧ (∃ c q, Q = c :: q ∧ isSpace c = false) ∧ x.caps = (.params, s.pos + g.length, Q ++ b) :: s.caps) := by
  cases items with
  | nil =>
    have hs' : s.rest = blanks ++ comment ++ e := by rw [hs]; rfl
    obtain ⟨t, ht, _⟩ := comment_run hE s hs'
    obtain ⟨x, hx⟩ := Option.isSome_iff_exists.1 (go_complete _ _ _ ht some rfl)
    obtain ⟨t', ht', hxt⟩ := go_sound _ _ _ _ hx
    simp at hxt; subst hxt
    have hcaps := comment_caps ht'
    obtain ⟨a, hb⟩ := run_between ht'
    refine ⟨t', [], blanks ++ comment ++ e, ?_, rfl, by simp, by rw [hb.pos]; omega, .inl ⟨rfl, rfl, hcaps⟩⟩
    unfold instRe
    rw [go_seq, go_opt_skip]
    · exact hx
    · apply go_none
      intro u hu
      exfalso
      obtain ⟨b, c, r, _, e1, hbs, hc, _, hc2⟩ := inst_params_head w hu
      rcases hE.comment with g | ⟨_, cm, g, _⟩
      · have : c ∈ blanks ++ comment ++ e := by rw [← hs', e1]; simp
        rw [g] at this
        simp only [List.append_nil, List.mem_append] at this
        rcases this with m | m
        · have := hE.blank c m; rw [hc] at this; simp at this
        · have := hE.last c m; rw [hc] at this; simp at this
      · have := blanks_visible (b := b) (b' := blanks) (c := c) (c' := ';') (r := r) (r' := cm ++ e) (by rw [← e1, hs', g]; simp) hbs hE.blank hc (by decide)
        exact hc2 this.2
  | cons i l =>
    have hio := hi i (by simp)
    obtain ⟨q, m, eq⟩ := List.exists_cons_of_ne_nil (Props.Params.word_ne_nil _ hio.1.2.1.name)
    have hq : w.word q = true := hio.1.2.2.1 q (by rw [eq]; simp)
    have e0 : itemsText (i :: l) = i.1 ++ (i.2.text ++ itemsText l) := by simp [itemsText]
    let t : St := adv s i.1 (i.2.text ++ (itemsText l ++ (blanks ++ comment ++ e)))
    obtain ⟨b, rest, x, f1, f2, f3, f4⟩ := items_go w (fun u => go commentRe some (St.close .params t u)) (by
        intro u y hy
        obtain ⟨z, hz, _⟩ := go_sound _ _ _ _ hy
        exact ⟨St.close .params t u, z, rfl, hz⟩) (by
        intro u b' c' e' hE' hu
        obtain ⟨z, hz, _⟩ := comment_run hE' (St.close .params t u) hu
        exact go_complete _ _ _ hz some rfl) hE l i t (fun u => more (go (instItem w)) (fun u => go commentRe some (St.close .params t u)) u.rest.length u) hi rfl
        (fun u => .inr ⟨_, rfl⟩) (fun u _ => ⟨_, Nat.le_refl _, rfl⟩)
    obtain ⟨y, hy, hxy⟩ := go_sound _ _ _ _ f4
    simp at hxy; subst hxy
    have hcaps := comment_caps hy
    obtain ⟨a, hb⟩ := run_between hy
    refine ⟨y, b, rest, ?_, f1, f2, ?_, .inr ⟨i.1, i.2.text ++ itemsText l, e0, hio.1.1.1, hio.1.1.2, ?_, ?_⟩⟩
    · unfold instRe
      rw [go_seq]
      show (go _ _ s).or _ = some y
      have : go (.seq (plus sp) (.seq (opt paramsWord) (.grp .params (plus (instItem w))))) (go commentRe some) s = some y := by
        rw [go_seq]
        refine go_plus _ _ s i.1 (i.2.text ++ (itemsText l ++ (blanks ++ comment ++ e))) hio.1.1.1 (by rw [hs, e0]; simp) hio.1.1.2 ?_ y ?_
        · intro c hc
          rw [item_text, eq] at hc
          simp at hc
          rw [← hc]; exact (w.not q hq).1
        · rw [go_seq, go_opt_skip]
          · rw [go_grp]
            show go (.seq (instItem w) (.star (instItem w))) _ t = _
            rw [go_seq]
            exact f3
          · apply go_none
            intro u hu
            exfalso
            exact no_params_word w (n := i.2.name) (b1 := i.2.b1) (r := (i.2.b2 ++ valuesText i.2) ++ (itemsText l ++ (blanks ++ comment ++ e))) (by simp [adv, item_text])
              hio.1.2.2.1 hio.1.2.1.b1 hu
      rw [this]; rfl
    · rw [hb.pos]
      simp only [St.close, t, adv]
      omega
    · exact ⟨q, m ++ (i.2.b1 ++ '=' :: (i.2.b2 ++ valuesText i.2)) ++ itemsText l, by rw [item_text, eq]; simp, (w.not q hq).1⟩
    · rw [hcaps]
      have hbt : Between t (adv t (i.2.text ++ itemsText l ++ b) rest) (i.2.text ++ itemsText l ++ b) := ⟨by simp [t, adv, f1], rfl⟩
      rw [close_text _ hbt]
      rfl

/-- Where the parameters are found: all of them with their blanks; or none at all; or without the first blanks. -/
def ParamsAt (x : St) (start : Nat) (P b : Str) : Prop :=
  (x.get .params = some (start, P ++ b) ∧ (P = [] → b = [])) ∨ (P = [] ∧ b = [] ∧ x.get .params = none) ∨
    ∃ g Q : Str, P = g ++ Q ∧ g ≠ [] ∧ (∀ c ∈ g, isSpace c = true) ∧ (∃ c q, Q = c :: q ∧ isSpace c = false) ∧ x.get .params = some (start + g.length, Q ++ b)

theorem exec_inst (c : Char) (D : Str) (ns : List (Str × Str)) (hn : 1 ≤ ns.length) (hm : ns.length ≤ 99) (hh : HeadOk w c D ns)
    (gap v : Str) (items : List (Str × Item)) (hi : ∀ i ∈ items, ItemOk w.word i ∧ '\n' ∉ valuesText i.2) (blanks comment e : Str) (hg : gap ≠ []) (hgs : ∀ x ∈ gap, isSpace x = true)
    (he : EndOk blanks comment e) (hv : v ≠ []) (hvs : ∀ c ∈ v, modelChar w c = true) :
    ∃ x b rest, exec (.seq (prefixAndNodes w c 1 99) (.seq (modelRe w) (instRe w))) (D ++ nodesText ns ++ gap ++ [] ++ v ++ itemsText items ++ blanks ++ comment ++ e) = some x ∧
      x.get .designator = some (0, D) ∧ x.get .nodes = some (D.length, nodesText ns) ∧ x.get .value = some ((D ++ nodesText ns ++ gap ++ []).length, v) ∧
      ParamsAt x (D ++ nodesText ns ++ gap ++ [] ++ v).length (itemsText items) b ∧ x.pos ≠ 0 ∧ (∀ c ∈ b, isSpace c = true) ∧ blanks ++ comment ++ e = b ++ rest := by
  have hB : Begins w (itemsText items) := (items_strictOk w items (fun x hx => (hi x hx).1)).begins
  have hRh : ∀ c, (itemsText items ++ (blanks ++ comment ++ e)).head? = some c → isSpace c = true := by
    intro c hc
    rcases hB with hB | ⟨g, n, b, r, e1, hg, hgs, _⟩
    · rw [hB] at hc; exact end_head he c hc
    · rw [e1] at hc
      obtain ⟨z, g', rfl⟩ := List.exists_cons_of_ne_nil hg
      simp at hc; rw [← hc]; exact hgs z (by simp)
  have R0 : ∀ c, (gap ++ (v ++ (itemsText items ++ (blanks ++ comment ++ e)))).head? = some c → isSpace c = true := by
    intro y hy
    obtain ⟨z, g, rfl⟩ := List.exists_cons_of_ne_nil hg
    simp at hy; subst hy; exact hgs z (by simp)
  obtain ⟨t, h1, h2, h3, h4⟩ := go_model w (go (instRe w) some) (afterNodes D (nodesText ns) (gap ++ (v ++ (itemsText items ++ (blanks ++ comment ++ e))))) gap v _ rfl hg hgs hv hvs hRh
    (fun t ht => by obtain ⟨x, _, _, hx, _⟩ := go_inst w items hi he t ht; rw [hx]; rfl)
  obtain ⟨x, b, rest, g1, g2, g3, g4, g5⟩ := go_inst w items hi he t h2
  have hpos : x.pos ≠ 0 := by
    have : 0 < t.pos := by
      rw [h3]
      have : 0 < v.length := List.length_pos_iff.mpr hv
      simp [afterNodes]; omega
    omega
  have e1 : (G.designator == G.value) = false := by decide
  have e2 : (G.nodes == G.value) = false := by decide
  have e3 : (G.designator == G.nodes) = false := by decide
  have e4 : (G.params == G.value) = false := by decide
  have e5 : (G.params == G.nodes) = false := by decide
  have e6 : (G.params == G.designator) = false := by decide
  have e7 : (G.value == G.params) = false := by decide
  have e8 : (G.nodes == G.params) = false := by decide
  have e9 : (G.designator == G.params) = false := by decide
  refine ⟨x, b, rest, ?_, ?_, ?_, ?_, ?_, hpos, g3, g2⟩
  · have := exec_range w c 1 99 D ns hn hm hh (.seq (modelRe w) (instRe w)) _ R0 (by
      intro j s y z hs hy hz
      cases hz with
      | seq hz hq => exact no_more_nodes w (fun _ hs => stuck_inst w hs) j (t' := St.close .nodes _ y) hs hgs hv hvs hB he y _ _ hy rfl hz hq) x (by rw [go_seq]; exact h1.trans g1)
    rw [← this]
    simp
  · unfold St.get
    rcases g5 with ⟨_, _, g⟩ | ⟨_, _, _, _, _, _, g⟩ <;> rw [g, h4] <;> simp only [afterNodes, List.lookup, e1, e3, e9] <;> rfl
  · unfold St.get
    rcases g5 with ⟨_, _, g⟩ | ⟨_, _, _, _, _, _, g⟩ <;> rw [g, h4] <;> simp only [afterNodes, List.lookup, e2, e8] <;> rfl
  · unfold St.get
    rcases g5 with ⟨_, _, g⟩ | ⟨_, _, _, _, _, _, g⟩ <;> rw [g, h4] <;> simp [afterNodes, List.lookup, e7, Nat.add_assoc]
  · rcases g5 with ⟨rfl, rfl, g⟩ | ⟨gg, Q, f1, f2, f3, f4, g⟩
    · refine .inr (.inl ⟨rfl, rfl, ?_⟩)
      unfold St.get
      rw [g, h4]
      simp only [afterNodes, List.lookup, e4, e5, e6]
    · refine .inr (.inr ⟨gg, Q, f1, f2, f3, f4, ?_⟩)
      unfold St.get
      rw [g]
      simp [h3, afterNodes, Nat.add_assoc]

end Lemmas.CompLine
