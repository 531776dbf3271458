import Verif.Lemmas.CompWrite
import Verif.Lemmas.CompRange

/-! Lines of components without parameters. -/
namespace Lemmas.CompLine
open Model.Regex Lemmas.Regex Model.CompLine
open Model.PyStr (isSpace strip lstrip rstrip upper)
open Model.SpiceParam (insertSection)
open Spec.ParamList (Item Word Blank)
open Spec.CompLine (Short ShortKind)

variable (w : WordClass)

theorem exec_exact (c : Char) (n : Nat) (D : Str) (ns : List (Str × Str)) (hn : ns.length = n) (hh : HeadOk w c D ns) (Q : Re) (R : Str)
    (hR : ∀ c, R.head? = some c → isSpace c = true) (x : St) (hx : go Q some (afterNodes D (nodesText ns) R) = some x) :
    exec (.seq (prefixAndNodes w c n n) Q) (D ++ nodesText ns ++ R) = some x := by
  obtain ⟨a, mark, d, rfl, ha, hmk, hd, hw⟩ := hh.designator
  subst hn
  unfold exec
  rw [go_seq]
  exact go_prefix w c _ _ a mark d ns R rfl ha hmk hd hw hh.nodes hR x hx

/-- What the groups hold when there are no parameters. -/
structure ShortFound (x : St) (D N gap raw : Str) : Prop where
  designator : x.get .designator = some (0, D)
  nodes : x.get .nodes = some (D.length, N)
  value : x.get .value = some ((D ++ N ++ gap).length, raw)
  params : x.get .params = none
  pos : x.pos ≠ 0

theorem shortFound_of_caps (x : St) (D N gap raw : Str) (hD : D ≠ []) (hpos : (D ++ N).length ≤ x.pos)
    (h : x.caps = [(.value, (D ++ N ++ gap).length, raw), (.nodes, D.length, N), (.designator, 0, D)]) : ShortFound x D N gap raw := by
  have e1 : (G.designator == G.value) = false := by decide
  have e2 : (G.designator == G.nodes) = false := by decide
  have e3 : (G.nodes == G.value) = false := by decide
  have e4 : (G.params == G.value) = false := by decide
  have e5 : (G.params == G.nodes) = false := by decide
  have e6 : (G.params == G.designator) = false := by decide
  refine ⟨?_, ?_, ?_, ?_, ?_⟩
  · unfold St.get; rw [h]; simp only [List.lookup, e1, e2]; rfl
  · unfold St.get; rw [h]; simp only [List.lookup, e3]; rfl
  · unfold St.get; rw [h]; rfl
  · unfold St.get; rw [h]; simp only [List.lookup, e4, e5, e6]
  · have : 0 < D.length := List.length_pos_iff.mpr hD
    simp at hpos; omega

theorem go_pos {r : Re} {s x : St} (h : go r some s = some x) : s.pos ≤ x.pos := by
  obtain ⟨t, h1, h2⟩ := go_sound r some s x h
  simp at h2; subst h2
  obtain ⟨a, ha⟩ := run_between h1
  rw [ha.pos]; omega

theorem head_ne (D : Str) (c : Char) (ns : List (Str × Str)) (hh : HeadOk w c D ns) : D ≠ [] := by
  obtain ⟨a, mark, d, rfl, _⟩ := hh.designator
  simp

/-- The rest of the line is the value. -/
theorem go_rest (k : St → Option St) (s : St) (gap Z e : Str) (hs : s.rest = gap ++ (Z ++ e)) (hg : gap ≠ []) (hgs : ∀ x ∈ gap, isSpace x = true) (hZ : ∀ c ∈ Z, c ≠ '\n')
    (hZh : ∃ c z, Z = c :: z ∧ isSpace c = false) (he : e = [] ∨ e = ['\n']) (x : St)
    (hk : k (St.close .value (adv s gap (Z ++ e)) (adv s (gap ++ Z) e)) = some x) :
    go (.seq (plus sp) (.grp .value (.star dot))) k s = some x := by
  obtain ⟨c0, z0, rfl, hc0⟩ := hZh
  rw [go_seq]
  refine go_plus _ _ s gap _ hg hs hgs ?_ x ?_
  · intro c hc; simp at hc; subst hc; exact hc0
  · rw [go_grp]
    refine go_star _ _ _ (c0 :: z0) e rfl ?_ ?_ x ?_
    · intro c hc; simpa using hZ c hc
    · intro c hc
      rcases he with rfl | rfl
      · simp at hc
      · simp at hc; subst hc; decide
    · rw [adv_adv]; exact hk

theorem exec_rest (c : Char) (n : Nat) (D : Str) (ns : List (Str × Str)) (hn : ns.length = n) (hh : HeadOk w c D ns) (gap Z e : Str) (hg : gap ≠ [])
    (hgs : ∀ x ∈ gap, isSpace x = true) (hZ : ∀ c ∈ Z, c ≠ '\n') (hZh : ∃ c z, Z = c :: z ∧ isSpace c = false) (he : e = [] ∨ e = ['\n']) (Q : Re)
    (hQ : Q = anyValueRe ∨ Q = .seq (plus sp) (.grp .value (.star dot))) :
    ∃ x, exec (.seq (prefixAndNodes w c n n) Q) (D ++ nodesText ns ++ gap ++ Z ++ e) = some x ∧ ShortFound x D (nodesText ns) gap Z := by
  have hR : ∀ c, (gap ++ (Z ++ e)).head? = some c → isSpace c = true := by
    intro y hy
    obtain ⟨z, g, rfl⟩ := List.exists_cons_of_ne_nil hg
    simp at hy; subst hy; exact hgs z (by simp)
  let s1 := afterNodes D (nodesText ns) (gap ++ (Z ++ e))
  let t : St := St.close .value (adv s1 gap (Z ++ e)) (adv s1 (gap ++ Z) e)
  have ht : t.caps = [(.value, (D ++ nodesText ns ++ gap).length, Z), (.nodes, D.length, nodesText ns), (.designator, 0, D)] := by
    have := close_text .value (s := adv s1 gap (Z ++ e)) (t := adv s1 (gap ++ Z) e) (a := Z) ⟨rfl, by simp [adv, Nat.add_assoc]⟩
    rw [show t.caps = _ from this]
    simp [s1, adv, afterNodes, Nat.add_assoc]
  have key : ∃ x, go Q some s1 = some x ∧ x.caps = t.caps := by
    rcases hQ with rfl | rfl
    · obtain ⟨u, hu, _⟩ := comment_run (blanks := []) (comment := []) (e := e) ⟨by simp, .inl rfl, by rcases he with rfl | rfl <;> decide⟩ t rfl
      obtain ⟨x, hx⟩ := Option.isSome_iff_exists.1 (go_complete commentRe t u hu some rfl)
      obtain ⟨u', hu', e'⟩ := go_sound _ _ _ _ hx
      simp at e'; subst e'
      refine ⟨u', ?_, comment_caps hu'⟩
      have := go_rest (go commentRe some) s1 gap Z e rfl hg hgs hZ hZh he u' hx
      unfold anyValueRe
      rw [go_seq] at this ⊢
      exact this
    · exact ⟨t, go_rest some s1 gap Z e rfl hg hgs hZ hZh he t rfl, rfl⟩
  obtain ⟨x, h1, h2⟩ := key
  refine ⟨x, ?_, shortFound_of_caps x _ _ _ _ (head_ne w D c ns hh) ?_ (h2.trans ht)⟩
  · have := exec_exact w c n D ns hn hh Q (gap ++ (Z ++ e)) hR x h1
    simpa using this
  · exact go_pos h1

/-! ### Couplings -/

theorem span_unique {a b r1 r2 : Str} {z y : Char} (h : a ++ z :: r1 = b ++ y :: r2) (ha : ∀ c ∈ a, isSpace c = true) (hb : ∀ c ∈ b, isSpace c = true)
    (hz : isSpace z = false) (hy : isSpace y = false) : a = b ∧ z :: r1 = y :: r2 := by
  induction a generalizing b with
  | nil =>
    cases b with
    | nil => exact ⟨rfl, by simpa using h⟩
    | cons q b =>
      simp at h
      have := hb q (by simp)
      rw [← h.1, hz] at this; simp at this
  | cons p a ih =>
    cases b with
    | nil =>
      simp at h
      have := ha p (by simp)
      rw [h.1, hy] at this; simp at this
    | cons q b =>
      simp at h
      obtain ⟨h1, h2⟩ := ih h.2 (fun c hc => ha c (by simp [hc])) (fun c hc => hb c (by simp [hc]))
      exact ⟨by rw [h.1, h1], h2⟩

/-- A visible character that begins no comment. -/
def Solid (c : Char) : Prop := isSpace c = false ∧ c ≠ ';' ∧ c ≠ '\\'

/-- The end of the line has no further word. -/
theorem end_no_word {blanks comment e : Str} (he : EndOk blanks comment e) {s t u : St} (h1 : Run (plus sp) s t) {a : Str} (hb : Between t u a) (ha : a ≠ [])
    (hv : ∀ c ∈ a, Solid c) (hs : s.rest = blanks ++ comment ++ e) : False := by
  obtain ⟨a1, n1, b1, p1, _⟩ := run_plus_cls h1
  obtain ⟨z, a', rfl⟩ := List.exists_cons_of_ne_nil ha
  have hz := hv z (by simp)
  have e1 : a1 ++ z :: (a' ++ u.rest) = blanks ++ comment ++ e := by rw [← hs, b1.text, hb.text]; simp
  rcases he.comment with rfl | ⟨_, cm, rfl, _⟩
  · have : z ∈ blanks ++ [] ++ e := by rw [← e1]; simp
    simp only [List.append_nil, List.mem_append] at this
    have hzs := hz.1
    rcases this with m | m
    · rw [he.blank z m] at hzs; simp at hzs
    · rw [he.last z m] at hzs; simp at hzs
  · have e2 : a1 ++ z :: (a' ++ u.rest) = blanks ++ ';' :: (cm ++ e) := by rw [e1]; simp
    have := (span_unique e2 p1 he.blank hz.1 (by decide)).2
    simp at this
    exact hz.2.1 this.1

/-- Nor can a word begin in the middle of one. -/
theorem mid_no_word {c : Char} {r : Str} (hc : isSpace c = false) {s t : St} (h1 : Run (plus sp) s t) (hs : s.rest = c :: r) : False := by
  obtain ⟨a1, n1, b1, p1, _⟩ := run_plus_cls h1
  obtain ⟨z, a', rfl⟩ := List.exists_cons_of_ne_nil n1
  have := b1.text
  rw [hs] at this
  simp at this
  have h2 := p1 z (by simp)
  rw [← this.1, hc] at h2; simp at h2

/-- A word, or the beginning of one. -/
theorem word_prefix {p : Char → Bool} (hp : ∀ c, p c = true → isSpace c = false) {s t u : St} (h1 : Run (plus sp) s t) (h2 : Run (plus (.cls p)) t u)
    {gap v R : Str} (hs : s.rest = gap ++ (v ++ R)) (hg : ∀ c ∈ gap, isSpace c = true) (hv : v ≠ []) (hvs : ∀ c ∈ v, isSpace c = false) (hR : ∀ c, R.head? = some c → isSpace c = true) :
    u.rest = R ∨ ∃ c r, u.rest = c :: r ∧ c ∈ v := by
  obtain ⟨y, v', rfl⟩ := List.exists_cons_of_ne_nil hv
  obtain ⟨_, _, m, hm, hmp, e2⟩ := blank_run hp h1 h2 gap y (v' ++ R) (by rw [hs]; simp) hg (hvs y (by simp))
  have e3 : m ++ u.rest = (y :: v') ++ R := by rw [← e2]; simp
  rcases split_suffix e3 with ⟨d, f1, f2⟩ | ⟨d, hd, f1, f2⟩
  · cases d with
    | nil => left; simpa using f2.symm
    | cons q d =>
      exfalso
      have h3 := hp q (hmp q (by rw [f1]; simp))
      rw [hR q (by rw [f2]; rfl)] at h3; simp at h3
  · right
    obtain ⟨q, d', rfl⟩ := List.exists_cons_of_ne_nil hd
    exact ⟨q, d' ++ R, by simpa using f2, by rw [f1]; simp⟩

def couplingValue : Re := .seq (opt (.cls (fun c => c = '+' || c = '-'))) (.seq (plus (.cls (fun c => c.isDigit || ['.', 'E', 'e', '+', '-'].contains c)))
  (opt (among ['k', 'm', 'u', 'µ', 'n', 'p', 'g', 't'])))

theorem solid_digit (c : Char) (h : c.isDigit = true) : Solid c := by
  have hb : c.toNat < 128 := by
    simp only [Char.isDigit, Bool.and_eq_true, decide_eq_true_eq] at h
    have h2 := UInt32.le_iff_toNat_le.1 h.2
    exact Nat.lt_of_le_of_lt h2 (by decide)
  refine ⟨?_, ?_, ?_⟩
  · by_contra hs
    have f := (Lemmas.ParamRegex.space_facts c (by simpa using hs)).1
    have : Model.ParamRegex.wordChar c = true := by
      simp [Model.ParamRegex.wordChar, Char.isAlphanum, h]
    rw [this] at f; simp at f
  · rintro rfl; revert h; decide
  · rintro rfl; revert h; decide

theorem solid_coupling : AllIn Solid couplingValue := by
  refine ⟨⟨?_, trivial⟩, ⟨?_, ?_⟩, ⟨?_, trivial⟩⟩
  · intro c hc
    simp only [Bool.or_eq_true, decide_eq_true_eq] at hc
    rcases hc with rfl | rfl <;> (unfold Solid; decide)
  · intro c hc
    simp only [Bool.or_eq_true, List.contains_eq_mem, decide_eq_true_eq, List.mem_cons, List.not_mem_nil, or_false] at hc
    rcases hc with hc | hc
    · exact solid_digit c hc
    · rcases hc with rfl | rfl | rfl | rfl | rfl <;> (unfold Solid; decide)
  · intro c hc
    simp only [Bool.or_eq_true, List.contains_eq_mem, decide_eq_true_eq, List.mem_cons, List.not_mem_nil, or_false] at hc
    rcases hc with hc | hc
    · exact solid_digit c hc
    · rcases hc with rfl | rfl | rfl | rfl | rfl <;> (unfold Solid; decide)
  · intro c h
    simp only [Bool.or_eq_true, List.contains_eq_mem, decide_eq_true_eq] at h
    have base : ∀ d ∈ ['k', 'm', 'u', 'µ', 'n', 'p', 'g', 't'], Solid d := by unfold Solid; decide
    rcases h with h | h
    · exact base c h
    · have hb := base _ h
      by_cases hc : c.toNat < 128
      · revert hb
        exact Lemmas.PyStr.ascii_ind (P := fun c => Solid c.toLower → Solid c) (by unfold Solid; decide +kernel) c hc
      · rw [Lemmas.PyStr.toLower_big c (by omega)] at hb; exact hb

theorem coupling_run {s t : St} (h : Run couplingValue s t) : ∃ a, a ≠ [] ∧ Between s t a ∧ ∀ c ∈ a, Solid c := by
  obtain ⟨a, ha, hs⟩ := run_in h solid_coupling
  refine ⟨a, ?_, ha, hs⟩
  rintro rfl
  unfold couplingValue at h
  cases h with
  | seq h1 h2 =>
    cases h2 with
    | seq h3 h4 =>
      obtain ⟨a1, b1⟩ := run_between h1
      obtain ⟨a2, n2, b2, _⟩ := run_plus_cls h3
      obtain ⟨a3, b3⟩ := run_between h4
      have := (b1.trans (b2.trans b3)).unique ha
      simp at this
      exact n2 this.2.1

/-- A coupling. -/
theorem exec_coupling (c : Char) (D : Str) (ns : List (Str × Str)) (hn : 2 ≤ ns.length) (hm : ns.length ≤ 99) (hh : HeadOk w c D ns) (gap v blanks comment e : Str) (hg : gap ≠ [])
    (hgs : ∀ x ∈ gap, isSpace x = true) (hv : ShortKind.coupling.valueOk v) (he : EndOk blanks comment e) :
    ∃ x, exec (.seq (prefixAndNodes w c 2 99) couplingRe) (D ++ nodesText ns ++ gap ++ v ++ (blanks ++ comment ++ e)) = some x ∧ ShortFound x D (nodesText ns) gap v := by
  have hR : ∀ c, (gap ++ (v ++ (blanks ++ comment ++ e))).head? = some c → isSpace c = true := by
    intro y hy
    obtain ⟨z, g, rfl⟩ := List.exists_cons_of_ne_nil hg
    simp at hy; subst hy; exact hgs z (by simp)
  obtain ⟨b, u, rfl, hb, hbs, hu⟩ := hv
  -- the value matches
  have hrun : ∀ (s : St) (R : Str), s.rest = (b ++ u) ++ R → Run couplingValue s (adv s (b ++ u) R) := by
    intro s R hs
    refine .seq (.right .nil) (.seq (plus_cls_run b s (u ++ R) hb (by rw [hs]; simp) ?_) ?_)
    · intro c hc
      rcases hbs c hc with g | g
      · simp [g]
      · simp only [List.contains_eq_mem, Bool.or_eq_true, decide_eq_true_eq]; exact .inr g
    · rcases hu with rfl | ⟨q, hq, rfl⟩
      · rw [List.append_nil, List.nil_append]; exact .right .nil
      · rw [← adv_adv s b [q] R ([q] ++ R)]
        exact .left (.cls (c := q) (r := R) rfl (by simpa [among] using hq))
  have hsol : ∀ c ∈ b ++ u, Solid c := by
    have r := hrun ⟨0, (b ++ u) ++ [], []⟩ [] rfl
    obtain ⟨a, ha, _, hs⟩ : ∃ a, Between _ _ a ∧ a ≠ [] ∧ ∀ c ∈ a, Solid c := by
      obtain ⟨a, h1, h2, h3⟩ := coupling_run r; exact ⟨a, h2, h1, h3⟩
    have : a = b ++ u := ha.unique ⟨by simp [adv], rfl⟩
    rw [← this]; exact hs
  generalize hvv : b ++ u = v at *
  have hvne : v ≠ [] := by rw [← hvv]; simp [hb]
  let s1 := afterNodes D (nodesText ns) (gap ++ (v ++ (blanks ++ comment ++ e)))
  let s2 := adv s1 gap (v ++ (blanks ++ comment ++ e))
  let t : St := St.close .value s2 (adv s2 v (blanks ++ comment ++ e))
  obtain ⟨z, hz, _⟩ := comment_run he t rfl
  have hwhole : Run couplingRe s1 z := .seq (plus_cls_run gap s1 _ hg rfl hgs) (.seq (.grp (hrun s2 _ rfl)) hz)
  obtain ⟨x, hx⟩ := Option.isSome_iff_exists.1 (go_complete couplingRe s1 z hwhole some rfl)
  refine ⟨x, ?_, ?_⟩
  · have := exec_range w c 2 99 D ns hn hm hh couplingRe (gap ++ (v ++ (blanks ++ comment ++ e))) hR ?_ x hx
    · simpa using this
    · intro j s y z hs hy hz
      have first : ∀ s1, Run (nodeRe w) s s1 → s1.rest = blanks ++ comment ++ e ∨ ∃ c r, s1.rest = c :: r ∧ c ∈ v := by
        intro s1 hr
        cases hr with
        | seq r3 r4 => exact word_prefix (node_not_space w) r3 r4 hs hgs hvne (fun c hc => (hsol c hc).1) (end_head he)
      have nomore : ∀ (q q' : St) (a : Str) (q2 : St), (q.rest = blanks ++ comment ++ e ∨ ∃ c r, q.rest = c :: r ∧ c ∈ v) → Run (plus sp) q q' → Between q' q2 a → a ≠ [] → (∀ c ∈ a, Solid c) → False := by
        intro q q' a q2 hq h1 h2 h3 h4
        rcases hq with hq | ⟨c, r, hq, hc⟩
        · exact end_no_word he h1 h2 h3 h4 hq
        · exact mid_no_word (hsol c hc).1 h1 hq
      cases hy with
      | @seq _ _ _ q _ r1 r2 =>
        have hq := first q r1
        have hyq : y.rest = q.rest := by
          cases j with
          | zero => cases r2; rfl
          | succ j =>
            cases r2 with
            | right r2 => cases r2; rfl
            | left r2 =>
              cases r2 with
              | seq r2 _ =>
                cases r2 with
                | seq r3 r4 =>
                  obtain ⟨a, ha, hb, hp, _⟩ := run_plus_cls r4
                  refine (nomore q _ a _ hq r3 hb ha ?_).elim
                  intro c hc
                  have := hp c hc
                  refine ⟨node_not_space w c this, ?_, ?_⟩
                  · rintro rfl; rw [(node_eq w).2] at this; simp at this
                  · rintro rfl
                    simp only [nodeChar, Bool.or_eq_true, decide_eq_true_eq] at this
                    rcases this with ((((((g | g) | g) | g) | g) | g) | g) | g
                    · have := (w.not _ g).2; simp at this
                    all_goals (revert g; decide)
        have hq' : (St.close .nodes (afterNodes D [] (nodesText ns ++ (gap ++ (v ++ (blanks ++ comment ++ e))))) y).rest = blanks ++ comment ++ e ∨
            ∃ c r, (St.close .nodes (afterNodes D [] (nodesText ns ++ (gap ++ (v ++ (blanks ++ comment ++ e))))) y).rest = c :: r ∧ c ∈ v := by
          simp only [St.close, hyq]; exact hq
        cases hz with
        | seq r5 r6 =>
          cases r6 with
          | seq r7 r8 =>
            cases r7 with
            | grp r7 =>
              obtain ⟨a, ha, hb, hs⟩ := coupling_run r7
              exact nomore _ _ a _ hq' r5 hb ha hs
  · -- the groups
    obtain ⟨x', hxr, hxe⟩ := go_sound _ _ _ _ hx
    simp at hxe; subst hxe
    cases hxr with
    | @seq _ _ _ q1 _ r5 r6 =>
      cases r6 with
      | @seq _ _ _ q3 _ r7 r8 =>
        cases r7 with
        | @grp _ _ _ q2 r7 =>
          obtain ⟨a1, n1, b1, p1, c1⟩ := run_plus_cls r5
          obtain ⟨a, ha, hb2, hs⟩ := coupling_run r7
          obtain ⟨l2, hl2, hl2n⟩ := run_caps r7
          have hl2' : l2 = [] := by
            cases l2 with
            | nil => rfl
            | cons y l => exact absurd (hl2n y (by simp)) (by simp [names, opt, plus, among])
          obtain ⟨y, v', hv'⟩ := List.exists_cons_of_ne_nil hvne
          obtain ⟨ya, a', rfl⟩ := List.exists_cons_of_ne_nil ha
          have e1 : a1 ++ ya :: (a' ++ q2.rest) = gap ++ y :: (v' ++ (blanks ++ comment ++ e)) := by
            have : s1.rest = a1 ++ (ya :: a' ++ q2.rest) := by rw [b1.text, hb2.text]
            rw [show s1.rest = gap ++ (v ++ (blanks ++ comment ++ e)) from rfl, hv'] at this
            simpa using this.symm
          obtain ⟨f1, f2⟩ := span_unique e1 p1 hgs (hs ya (by simp)).1 (hsol y (by rw [hv']; simp)).1
          have e3 : (ya :: a') ++ q2.rest = v ++ (blanks ++ comment ++ e) := by rw [hv']; simpa using f2
          have hav : ya :: a' = v := by
            rcases split_suffix e3 with ⟨d, g1, g2⟩ | ⟨d, hd, g1, g2⟩
            · cases d with
              | nil => simpa using g1
              | cons q d =>
                exfalso
                have h3 := (hs q (by rw [g1]; simp)).1
                rw [end_head he q (by rw [g2]; rfl)] at h3; simp at h3
            · exfalso
              obtain ⟨q, d', rfl⟩ := List.exists_cons_of_ne_nil hd
              have hq := hsol q (by rw [g1]; simp)
              rcases comment_head r8 [] q (d' ++ (blanks ++ comment ++ e)) (by show q2.rest = _; rw [g2]; simp) (by simp) hq.1 with h | h
              · exact hq.2.1 h
              · exact hq.2.2 h
          refine shortFound_of_caps x' _ _ _ _ (head_ne w D c ns hh) (go_pos hx) ?_
          rw [comment_caps r8, close_text .value hb2, hl2, hl2', c1, hav, b1.pos, f1]
          simp [s1, afterNodes, Nat.add_assoc]

end Lemmas.CompLine
