import Verif.Model.CompLine
import Verif.Lemmas.Regex
import Verif.Lemmas.PyStr
import Verif.Lemmas.ParamRegex
import Mathlib.Tactic.Tauto
import Mathlib.Data.List.TakeWhile
import Mathlib.Tactic.ByContra

/-! How the regular expressions of component lines match. -/
namespace Lemmas.CompLine
open Model.Regex Model.CompLine Lemmas.Regex
open Model.PyStr (isSpace)

/-! ### More about the matcher -/

theorem run_caps {r : Re} {s t : St} (h : Run r s t) : ∃ l, t.caps = l ++ s.caps ∧ ∀ c ∈ l, c.1 ∈ names r := by
  induction h with
  | nil => exact ⟨[], rfl, by simp⟩
  | cls _ _ => exact ⟨[], rfl, by simp⟩
  | seq _ _ ih1 ih2 =>
    obtain ⟨l, e1, h1⟩ := ih1; obtain ⟨m, e2, h2⟩ := ih2
    refine ⟨m ++ l, by rw [e2, e1, List.append_assoc], ?_⟩
    intro c hc
    rcases List.mem_append.1 hc with m | m
    · exact List.mem_append.2 (Or.inr (h2 c m))
    · exact List.mem_append.2 (Or.inl (h1 c m))
  | left _ ih => obtain ⟨l, e, h⟩ := ih; exact ⟨l, e, fun c hc => List.mem_append.2 (Or.inl (h c hc))⟩
  | right _ ih => obtain ⟨l, e, h⟩ := ih; exact ⟨l, e, fun c hc => List.mem_append.2 (Or.inr (h c hc))⟩
  | stop => exact ⟨[], rfl, by simp⟩
  | once _ _ _ ih1 ih2 =>
    obtain ⟨l, e1, h1⟩ := ih1; obtain ⟨m, e2, h2⟩ := ih2
    refine ⟨m ++ l, by rw [e2, e1, List.append_assoc], ?_⟩
    intro c hc
    rcases List.mem_append.1 hc with m | m
    · exact h2 c m
    · exact h1 c m
  | lstop => exact ⟨[], rfl, by simp⟩
  | lonce _ _ _ ih1 ih2 =>
    obtain ⟨l, e1, h1⟩ := ih1; obtain ⟨m, e2, h2⟩ := ih2
    refine ⟨m ++ l, by rw [e2, e1, List.append_assoc], ?_⟩
    intro c hc
    rcases List.mem_append.1 hc with m | m
    · exact h2 c m
    · exact h1 c m
  | @grp g a s t _ ih =>
    obtain ⟨l, e, h⟩ := ih
    refine ⟨(g, s.pos, s.rest.take (t.pos - s.pos)) :: l, by simp [St.close, e], ?_⟩
    intro c hc
    rcases List.mem_cons.1 hc with rfl | m
    · simp [names]
    · simp [names, h c m]
  | yes _ _ ih => obtain ⟨l, e, h⟩ := ih; exact ⟨l, e, fun c hc => List.mem_append.2 (Or.inl (h c hc))⟩
  | no _ _ ih => obtain ⟨l, e, h⟩ := ih; exact ⟨l, e, fun c hc => List.mem_append.2 (Or.inr (h c hc))⟩
  | eol _ => exact ⟨[], rfl, by simp⟩

theorem exec_names {r : Re} {text : Str} {x : St} (h : exec r text = some x) (g : G) (p : Nat × Str) (hg : x.get g = some p) : g ∈ names r := by
  obtain ⟨t, h1, h2⟩ := go_sound r some _ x h
  simp at h2; subst h2
  obtain ⟨l, e, hl⟩ := run_caps h1
  unfold St.get at hg
  rw [e] at hg
  have key : ∀ L : List (G × Nat × Str), L.lookup g = some p → (g, p) ∈ L := by
    intro L
    induction L with
    | nil => intro h; simp at h
    | cons y L ih =>
      intro h
      rw [List.lookup_cons] at h
      by_cases e : (g == y.1) = true
      · rw [e] at h; simp at h; simp only [beq_iff_eq] at e
        rw [← h, e]; simp
      · simp only [Bool.not_eq_true] at e
        rw [e] at h; exact List.mem_cons_of_mem _ (ih h)
  exact hl _ (key _ (by simpa using hg))

theorem go_seq (a b : Re) (k : St → Option St) (s : St) : go (.seq a b) k s = go a (go b k) s := rfl

theorem go_cls (p : Char → Bool) (k : St → Option St) (s : St) (c : Char) (r : Str) (hs : s.rest = c :: r) (hp : p c = true) :
    go (.cls p) k s = k (adv s [c] r) := by
  simp only [go, hs, hp, if_true]; rfl

theorem go_opt_skip (a : Re) (k : St → Option St) (s : St) (h : go a k s = none) : go (opt a) k s = k s := by
  simp only [opt, go, h, Option.none_or]

theorem go_cls_none (p : Char → Bool) (k : St → Option St) (s : St) (h : ∀ c, s.rest.head? = some c → p c = false) : go (.cls p) k s = none := by
  unfold go
  cases hr : s.rest with
  | nil => rfl
  | cons c r => simp [h c (by rw [hr]; rfl)]

theorem more_zero (f : (St → Option St) → St → Option St) (k : St → Option St) (s : St) : more f k 0 s = k s := rfl

/-- A greedy run that has to give back: nothing longer goes on, this does. -/
theorem more_back (p : Char → Bool) (k : St → Option St) (m r : Str) (hm : ∀ c ∈ m, p c = true) (hr : ∀ c, r.head? = some c → p c = false) :
    ∀ (n : Nat) (s : St), s.rest = m ++ r → m.length ≤ n → (∀ a b : Str, m = a ++ b → a ≠ [] → k (adv s a (b ++ r)) = none) →
      more (go (.cls p)) k n s = k s := by
  induction m with
  | nil =>
    intro n s hs _ _
    apply more_stop
    rw [hs]; exact hr
  | cons c m ih =>
    intro n s hs hn hk
    cases n with
    | zero => simp at hn
    | succ n =>
      have hs' : s.rest = c :: (m ++ r) := hs
      simp only [more]
      have h1 : go (.cls p) (fun t => if t.rest.length < s.rest.length then more (go (.cls p)) k n t else none) s = none := by
        rw [go_cls p _ s c (m ++ r) hs' (hm c (by simp))]
        rw [if_pos (by rw [hs']; simp [adv])]
        rw [ih (fun d hd => hm d (by simp [hd])) n (adv s [c] (m ++ r)) rfl (by simpa using hn)]
        · exact hk [c] m rfl (by simp)
        · intro a b e _
          rw [adv_adv]
          exact hk ([c] ++ a) b (by rw [e]; simp) (by simp)
      rw [h1, Option.none_or]

theorem star_adv (p : Char → Bool) (k : St → Option St) (a r : Str) (ha : ∀ c ∈ a, p c = true) :
    ∀ (n : Nat) (s : St), s.rest = a ++ r → a.length ≤ n → (more (go (.cls p)) k (n - a.length) (adv s a r)).isSome = true →
      more (go (.cls p)) k n s = more (go (.cls p)) k (n - a.length) (adv s a r) := by
  intro n s hs hn h
  obtain ⟨x, hx⟩ := Option.isSome_iff_exists.1 h
  rw [hx]
  exact star_cls p k a r ha n s hs hn x hx

theorem go_star_back (p : Char → Bool) (k : St → Option St) (s : St) (a m r : Str) (hs : s.rest = a ++ (m ++ r)) (ha : ∀ c ∈ a, p c = true)
    (hm : ∀ c ∈ m, p c = true) (hr : ∀ c, r.head? = some c → p c = false)
    (hk : ∀ b d : Str, m = b ++ d → b ≠ [] → k (adv s (a ++ b) (d ++ r)) = none) (x : St) (h : k (adv s a (m ++ r)) = some x) :
    go (.star (.cls p)) k s = some x := by
  unfold go
  refine star_cls p k a (m ++ r) ha _ s hs (by rw [hs]; simp) x ?_
  rw [more_back p k m r hm hr _ _ rfl (by rw [hs]; simp)]
  · exact h
  · intro b d e hb
    rw [adv_adv]
    exact hk b d e hb

/-! ### The designator and the nodes -/

variable (w : WordClass)

theorem go_designator (c : Char) (k : St → Option St) (s : St) (a : Char) (mark d r : Str) (hs : s.rest = a :: (mark ++ (d ++ r)))
    (ha : a = c ∨ a.toUpper = c) (hmark : mark = [] ∨ mark = ['§']) (hd : d ≠ []) (hw : ∀ x ∈ d, w.word x = true) (hr : ∀ x, r.head? = some x → w.word x = false)
    (x : St) (h : k { adv s (a :: (mark ++ d)) r with caps := (.designator, s.pos, a :: (mark ++ d)) :: s.caps } = some x) :
    go (designatorRe w c) k s = some x := by
  unfold designatorRe
  simp only [go]
  have hs1 : s.rest = a :: (mark ++ (d ++ r)) := hs
  unfold ci
  rw [go_cls _ _ s a _ hs1 (by simpa using ha)]
  have key : ∀ t : St, Between s t (a :: mark) → t.caps = s.caps → t.rest = d ++ r →
      go (plus (wordRe w)) (fun t => k (St.close .designator s t)) t = some x := by
    intro t hb hc ht
    refine go_plus _ _ t d r hd ht hw hr x ?_
    have hb2 : Between s (adv t d r) ((a :: mark) ++ d) := hb.trans ⟨ht, rfl⟩
    have : St.close .designator s (adv t d r) = { adv s (a :: (mark ++ d)) r with caps := (.designator, s.pos, a :: (mark ++ d)) :: s.caps } := by
      have e := close_text .designator hb2
      have hp := hb2.pos
      simp only [St.close, adv] at e hp ⊢
      rw [hc] at e
      simp only [List.cons_append] at e hp
      rw [hp]
      simp only [St.mk.injEq, true_and]
      rw [← hp, hc]
      exact e
    rw [this]; exact h
  rcases hmark with rfl | rfl
  · have h2 : go (lit '§') (go (plus (wordRe w)) (fun t => k (St.close .designator s t))) (adv s [a] (d ++ r)) = none := by
      apply go_cls_none
      intro y hy
      obtain ⟨e, d', rfl⟩ := List.exists_cons_of_ne_nil hd
      simp [adv] at hy
      subst hy
      have := (w.not e (hw e (by simp))).2
      simp only [decide_eq_false_iff_not]
      intro e2
      rw [e2] at this
      simp at this
    have h3 := go_opt_skip _ _ _ h2
    simp only [opt, go] at h3 ⊢
    refine h3.trans ?_
    exact key _ ⟨hs1, rfl⟩ rfl rfl
  · have h2 : go (lit '§') (go (plus (wordRe w)) (fun t => k (St.close .designator s t))) (adv s [a] (['§'] ++ (d ++ r))) = some x := by
      rw [show lit '§' = .cls (fun d => d = '§') from rfl, go_cls _ _ _ '§' (d ++ r) rfl (by decide), adv_adv]
      exact key _ ⟨hs1, rfl⟩ rfl rfl
    simp only [opt, go]
    rw [h2]
    rfl

theorem node_not_space (x : Char) (h : nodeChar w x = true) : isSpace x = false := by
  simp only [nodeChar, Bool.or_eq_true, decide_eq_true_eq] at h
  rcases h with ((((((h | h) | h) | h) | h) | h) | h) | h
  · exact (w.not x h).1
  all_goals (subst h; decide)

theorem space_not_node (x : Char) (h : isSpace x = true) : nodeChar w x = false := by
  by_contra hn
  have := node_not_space w x (by simpa using hn)
  rw [this] at h; simp at h

/-- A list of nodes, each after blanks. -/
def NodesOk (ns : List (Str × Str)) : Prop :=
  ∀ n ∈ ns, (n.1 ≠ [] ∧ ∀ c ∈ n.1, isSpace c = true) ∧ n.2 ≠ [] ∧ ∀ c ∈ n.2, nodeChar w c = true

def nodesText (ns : List (Str × Str)) : Str := ns.flatMap (fun n => n.1 ++ n.2)

theorem go_node (k : St → Option St) (s : St) (b n r : Str) (hs : s.rest = b ++ (n ++ r)) (hb : b ≠ []) (hb2 : ∀ c ∈ b, isSpace c = true)
    (hn : n ≠ []) (hn2 : ∀ c ∈ n, nodeChar w c = true) (hr : ∀ c, r.head? = some c → nodeChar w c = false) (x : St)
    (h : k (adv s (b ++ n) r) = some x) : go (nodeRe w) k s = some x := by
  unfold nodeRe
  simp only [go]
  refine go_plus _ _ s b (n ++ r) hb hs hb2 ?_ x ?_
  · intro c hc
    obtain ⟨e, n', rfl⟩ := List.exists_cons_of_ne_nil hn
    simp at hc; subst hc
    exact node_not_space w e (hn2 e (by simp))
  · refine go_plus _ _ _ n r hn rfl hn2 hr x ?_
    rw [adv_adv]; exact h

theorem nodes_head (ns : List (Str × Str)) (h : NodesOk w ns) (r : Str) (hr : ∀ c, r.head? = some c → isSpace c = true) :
    ∀ c, (nodesText ns ++ r).head? = some c → isSpace c = true := by
  intro c hc
  cases ns with
  | nil => exact hr c (by simpa [nodesText] using hc)
  | cons n ns =>
    obtain ⟨⟨h1, h2⟩, _⟩ := h n (by simp)
    obtain ⟨e, n', e1⟩ := List.exists_cons_of_ne_nil h1
    simp only [nodesText, List.flatMap_cons, e1, List.cons_append, List.head?_cons, Option.some.injEq] at hc
    subst hc
    exact h2 e (by rw [e1]; simp)

theorem go_times (ns : List (Str × Str)) (h : NodesOk w ns) : ∀ (k : St → Option St) (s : St) (r : Str), s.rest = nodesText ns ++ r →
    (∀ c, r.head? = some c → isSpace c = true) → ∀ x, k (adv s (nodesText ns) r) = some x → go (times (nodeRe w) ns.length) k s = some x := by
  induction ns with
  | nil =>
    intro k s r hs _ x hk
    simp only [List.length_nil, times, go]
    have : adv s (nodesText []) r = s := by rw [show r = s.rest by simpa [nodesText] using hs.symm]; exact adv_nil s
    rw [this] at hk; exact hk
  | cons n ns ih =>
    intro k s r hs hr x hk
    obtain ⟨⟨h1, h2⟩, h3, h4⟩ := h n (by simp)
    have hns : NodesOk w ns := fun y hy => h y (by simp [hy])
    simp only [List.length_cons, times, go]
    refine go_node w _ s n.1 n.2 (nodesText ns ++ r) (by rw [hs]; simp [nodesText]) h1 h2 h3 h4 ?_ x ?_
    · intro c hc
      exact space_not_node w c (nodes_head w ns hns r hr c hc)
    · refine ih hns k _ r rfl hr x ?_
      rw [adv_adv]
      simpa [nodesText] using hk

theorem go_prefix (c : Char) (k : St → Option St) (text : Str) (a : Char) (mark d : Str) (ns : List (Str × Str)) (r : Str)
    (hs : text = a :: (mark ++ d) ++ nodesText ns ++ r) (ha : a = c ∨ a.toUpper = c) (hmark : mark = [] ∨ mark = ['§']) (hd : d ≠ [])
    (hw : ∀ x ∈ d, w.word x = true) (hn : NodesOk w ns) (hr : ∀ c, r.head? = some c → isSpace c = true) (x : St)
    (h : k ⟨(a :: (mark ++ d) ++ nodesText ns).length, r,
      [(.nodes, (a :: (mark ++ d)).length, nodesText ns), (.designator, 0, a :: (mark ++ d))]⟩ = some x) :
    go (prefixAndNodes w c ns.length ns.length) k ⟨0, text, []⟩ = some x := by
  unfold prefixAndNodes
  simp only [go]
  refine go_designator w c _ _ a mark d (nodesText ns ++ r) (by rw [hs]; simp) ha hmark hd hw ?_ x ?_
  · intro y hy
    have := nodes_head w ns hn r hr y hy
    by_contra hc
    have e := (w.not y (by simpa using hc)).1
    rw [e] at this; simp at this
  · simp only [range, Nat.sub_self, upTo, go]
    refine go_times w ns hn _ _ r rfl hr x ?_
    simp only [St.close, adv]
    have e1 : (0 + (a :: (mark ++ d)).length + (nodesText ns).length) = (a :: (mark ++ d) ++ nodesText ns).length := by simp; omega
    rw [e1]
    have e2 : ((nodesText ns ++ r).take ((a :: (mark ++ d) ++ nodesText ns).length - (0 + (a :: (mark ++ d)).length))) = nodesText ns := by
      rw [show (a :: (mark ++ d) ++ nodesText ns).length - (0 + (a :: (mark ++ d)).length) = (nodesText ns).length by simp; omega]
      simp
    rw [e2]
    simpa using h

/-! ### The end of the line -/

/-- What may follow the value and the parameters: blanks, or blanks and a comment, with blanks at the end. -/
structure EndOk (blanks comment e : Str) : Prop where
  blank : ∀ c ∈ blanks, isSpace c = true
  comment : comment = [] ∨ (blanks ≠ [] ∧ ∃ cm : Str, comment = ';' :: cm ∧ ∀ c ∈ cm, c ≠ '\n')
  last : ∀ c ∈ e, isSpace c = true

theorem comment_run {blanks comment e : Str} (h : EndOk blanks comment e) (s : St) (hs : s.rest = blanks ++ comment ++ e) :
    ∃ t, Run commentRe s t ∧ t.caps = s.caps := by
  have tailRun : ∀ (u : St) (z : Str), u.rest = z → (∀ c ∈ z, isSpace c = true) →
      Run (.seq (opt (lit '\\')) (.seq (.star sp) .eol)) u (adv u z []) := by
    intro u z hu hz
    refine .seq (.right .nil) (.seq (star_cls_run z u [] (by simpa using hu) hz) (.eol (Or.inl rfl)))
  unfold commentRe
  rcases h.comment with rfl | ⟨hne, cm, rfl, hcm⟩
  · refine ⟨_, .seq (.right .nil) (tailRun s (blanks ++ e) (by simpa using hs) ?_), rfl⟩
    intro c hc
    rcases List.mem_append.1 hc with m | m
    · exact h.blank c m
    · exact h.last c m
  · have r1 : Run (plus sp) s (adv s blanks (';' :: cm ++ e)) := plus_cls_run blanks s _ hne (by simpa using hs) h.blank
    have r2 : Run (lit ';') (adv s blanks (';' :: cm ++ e)) (adv (adv s blanks (';' :: cm ++ e)) [';'] (cm ++ e)) :=
      .cls (c := ';') (r := cm ++ e) rfl (by decide)
    have r3 : Run (.star dot) (adv (adv s blanks (';' :: cm ++ e)) [';'] (cm ++ e)) _ := star_cls_run cm _ e rfl (by intro c hc; simpa using hcm c hc)
    exact ⟨_, .seq (.left (.seq r1 (.seq r2 r3))) (tailRun _ e rfl h.last), rfl⟩

theorem comment_caps {s t : St} (h : Run commentRe s t) : t.caps = s.caps := by
  obtain ⟨l, e, hl⟩ := run_caps h
  have : l = [] := by
    cases l with
    | nil => rfl
    | cons c l => exact absurd (hl c (by simp)) (by simp [names, commentRe, opt, plus, lit, sp, dot])
  rw [e, this]; rfl

/-- A comment begins with blanks and then a semicolon, a backslash or the end. -/
theorem comment_head {s t : St} (h : Run commentRe s t) (b : Str) (c : Char) (r : Str) (hs : s.rest = b ++ c :: r) (hb : ∀ x ∈ b, isSpace x = true)
    (hc : isSpace c = false) : c = ';' ∨ c = '\\' := by
  -- the first visible character is the same however the blanks are divided
  have first : ∀ (p q : Str) (d : Char), s.rest = p ++ d :: q → (∀ x ∈ p, isSpace x = true) → isSpace d = false → d = c := by
    intro p q d hp hps hd
    rw [hs] at hp
    clear hs
    induction b generalizing p with
    | nil =>
      cases p with
      | nil => simp at hp; exact hp.1.symm
      | cons y p =>
        simp at hp
        have := hps y (by simp)
        rw [← hp.1, hc] at this; simp at this
    | cons y b ih =>
      cases p with
      | nil =>
        simp at hp
        have := hb y (by simp)
        rw [hp.1, hd] at this; simp at this
      | cons z p =>
        simp at hp
        exact ih (fun x hx => hb x (by simp [hx])) p hp.2 (fun x hx => hps x (by simp [hx]))
  unfold commentRe at h
  cases h with
  | seq h1 h2 =>
    cases h1 with
    | left h1 =>
      cases h1 with
      | seq h3 h4 =>
        obtain ⟨p, _, hp, hps, _⟩ := run_plus_cls h3
        cases h4 with
        | seq h5 h6 =>
          cases h5 with
          | @cls _ _ d q hq hd =>
            simp at hd; subst hd
            left
            exact (first p q ';' (by rw [hp.text, hq]) hps (by decide)).symm
    | right h1 =>
      cases h1
      cases h2 with
      | seq h3 h4 =>
        cases h3 with
        | left h3 =>
          cases h3 with
          | @cls _ _ d q hq hd =>
            simp at hd; subst hd
            right
            exact (first [] q '\\' hq (by simp) (by decide)).symm
        | right h3 =>
          cases h3
          cases h4 with
          | seq h5 h6 =>
            obtain ⟨p, hp, hps, _⟩ := run_star_cls h5
            cases h6 with
            | eol he =>
              exfalso
              have hall : ∀ x ∈ s.rest, isSpace x = true := by
                rw [hp.text]
                intro x hx
                rcases List.mem_append.1 hx with m | m
                · exact hps x m
                · rcases he with he | he
                  · rw [he] at m; simp at m
                  · rw [he] at m; simp at m; subst m; decide
              have := hall c (by rw [hs]; simp)
              rw [hc] at this; simp at this

/-! ### The parameters -/

/-- The characters that parameters can be made of. -/
def inParams (c : Char) : Prop := isSpace c = true ∨ w.word c = true ∨ c = '=' ∨ paramChar w c = true

theorem inParams_not (c : Char) (h : inParams w c) : c ≠ ';' ∧ c ≠ '\\' := by
  have key : ∀ d : Char, d = ';' ∨ d = '\\' → ¬ inParams w d := by
    intro d hd h
    have hw : w.word d = false := by
      by_contra hc
      have := (w.not d (by simpa using hc)).2
      rcases hd with rfl | rfl <;> simp at this
    rcases h with h | h | h | h
    · rcases hd with rfl | rfl <;> revert h <;> decide
    · rw [hw] at h; simp at h
    · rcases hd with rfl | rfl <;> simp at h
    · simp only [paramChar, hw, Bool.false_or] at h
      rcases hd with rfl | rfl <;> revert h <;> decide
  exact ⟨fun e => key c (Or.inl e) h, fun e => key c (Or.inr e) h⟩

theorem item_run {s t : St} (h : Run (paramItem w) s t) : ∃ a, Between s t a ∧ (∀ c ∈ a, inParams w c) ∧ (∃ c ∈ a, isSpace c = false) ∧ t.caps = s.caps := by
  unfold paramItem at h
  cases h with
  | seq h1 h2 =>
    obtain ⟨a1, _, b1, p1, c1⟩ := run_plus_cls h1
    cases h2 with
    | seq h3 h4 =>
      obtain ⟨a2, n2, b2, p2, c2⟩ := run_plus_cls h3
      cases h4 with
      | seq h5 h6 =>
        obtain ⟨a3, b3, p3, c3⟩ := run_star_cls h5
        obtain ⟨x, a2', e2⟩ := List.exists_cons_of_ne_nil n2
        have hx : w.word x = true := p2 x (by rw [e2]; simp)
        have vis : isSpace x = false := (w.not x hx).1
        have base : ∀ c ∈ a1 ++ a2 ++ a3, inParams w c := by
          intro c hc
          simp only [List.mem_append] at hc
          rcases hc with (m | m) | m
          · exact Or.inl (p1 c m)
          · exact Or.inr (Or.inl (p2 c m))
          · exact Or.inl (p3 c m)
        cases h6 with
        | right h6 =>
          cases h6
          exact ⟨a1 ++ a2 ++ a3, (b1.trans b2).trans b3, base, ⟨x, by rw [e2]; simp, vis⟩, by rw [c3, c2, c1]⟩
        | left h6 =>
          cases h6 with
          | seq h7 h8 =>
            cases h8 with
            | seq h9 h10 =>
              obtain ⟨a5, b5, p5, c5⟩ := run_star_cls h9
              obtain ⟨a6, _, b6, p6, c6⟩ := run_plus_cls h10
              cases h7 with
              | @cls _ _ d q hq hd =>
                simp at hd; subst hd
                have b4 : Between _ (St.next _ q) ['='] := ⟨hq, rfl⟩
                refine ⟨a1 ++ a2 ++ a3 ++ ['='] ++ a5 ++ a6, ((((b1.trans b2).trans b3).trans b4).trans b5).trans b6, ?_, ⟨x, by rw [e2]; simp, vis⟩, ?_⟩
                · intro c hc
                  rw [List.mem_append, List.mem_append, List.mem_append] at hc
                  rcases hc with ((m | m) | m) | m
                  · exact base c m
                  · simp at m; exact Or.inr (Or.inr (Or.inl m))
                  · exact Or.inl (p5 c m)
                  · exact Or.inr (Or.inr (Or.inr (p6 c m)))
                · rw [c6, c5]
                  show (St.next _ q).caps = _
                  simp only [St.next]
                  rw [c3, c2, c1]

theorem items_run {s t : St} (h : Run (.star (paramItem w)) s t) : ∃ a, Between s t a ∧ (∀ c ∈ a, inParams w c) ∧ (a = [] ∨ ∃ c ∈ a, isSpace c = false) ∧ t.caps = s.caps := by
  generalize hr : Re.star (paramItem w) = r at h
  induction h with
  | stop => exact ⟨[], .refl _, by simp, Or.inl rfl, rfl⟩
  | @once a s t u h1 hl h2 _ ih2 =>
    cases hr
    obtain ⟨b, e1, e2, _, e4⟩ := ih2 rfl
    obtain ⟨a, f1, f2, ⟨x, hx, hv⟩, f4⟩ := item_run w h1
    refine ⟨a ++ b, f1.trans e1, ?_, Or.inr ⟨x, by simp [hx], hv⟩, by rw [e4, f4]⟩
    intro c hc
    rcases List.mem_append.1 hc with m | m
    · exact f2 c m
    · exact e2 c m
  | _ => simp at hr

/-- The text of a list of parameters on the line: it can be read as one, it consists of such characters, and it does not end in a blank. -/
structure ParamsOk (P : Str) : Prop where
  run : ∀ (s : St) (r : Str), s.rest = P ++ r → Run (.star (paramItem w)) s (adv s P r)
  chars : ∀ c ∈ P, inParams w c
  ends : ∀ c, P.getLast? = some c → isSpace c = false
  starts : ∀ c, P.head? = some c → isSpace c = true
  second : ∀ b r, P = b :: r → r.head? ≠ some '='

theorem split_suffix {p q P R : Str} (h : p ++ q = P ++ R) : (∃ b, p = P ++ b ∧ R = b ++ q) ∨ (∃ b, b ≠ [] ∧ P = p ++ b ∧ q = b ++ R) := by
  rw [List.append_eq_append_iff] at h
  rcases h with ⟨a, h1, h2⟩ | ⟨a, h1, h2⟩
  · by_cases ha : a = []
    · subst ha; left; exact ⟨[], by simpa using h1.symm, by simpa using h2.symm⟩
    · right; exact ⟨a, ha, h1, h2⟩
  · left; exact ⟨a, h1, h2⟩

theorem first_visible (q : Str) (h : ∃ c ∈ q, isSpace c = false) : ∃ b c r, q = b ++ c :: r ∧ (∀ x ∈ b, isSpace x = true) ∧ isSpace c = false := by
  induction q with
  | nil => obtain ⟨c, hc, _⟩ := h; simp at hc
  | cons y q ih =>
    by_cases hy : isSpace y = true
    · obtain ⟨c, hc, hv⟩ := h
      have : c ∈ q := by
        rcases List.mem_cons.1 hc with rfl | m
        · rw [hy] at hv; simp at hv
        · exact m
      obtain ⟨b, d, r, e, hb, hd⟩ := ih ⟨c, this, hv⟩
      refine ⟨y :: b, d, r, by rw [e]; rfl, ?_, hd⟩
      intro x hx
      rcases List.mem_cons.1 hx with rfl | m
      · exact hy
      · exact hb x m
    · exact ⟨[], y, q, rfl, by simp, by simpa using hy⟩

theorem take_opt (a b : Re) (k : St → Option St) (s x : St) (h : go a (go b k) s = some x) : go (.seq (opt a) b) k s = some x := by
  show (go a (go b k) s).or _ = some x
  rw [h]; rfl

/-- The parameters are found whole, with some of the blanks that follow. -/
theorem params_core {item : Re} (hsub : ∀ s t, Run item s t → Run (paramItem w) s t) {P blanks comment e : Str} (hPr : ∀ (s : St) (r : Str), s.rest = P ++ r → Run (.star item) s (adv s P r))
    (hPc : ∀ c ∈ P, inParams w c) (hPe : ∀ c, P.getLast? = some c → isSpace c = false) (he : EndOk blanks comment e) (s : St) (hs : s.rest = P ++ (blanks ++ comment ++ e)) :
    ∃ x b rest, go (.grp .params (.star item)) (go commentRe some) s = some x ∧ x.caps = (.params, s.pos, P ++ b) :: s.caps ∧ (∀ c ∈ b, isSpace c = true) ∧ (P = [] → b = []) ∧
      blanks ++ comment ++ e = b ++ rest ∧ s.pos ≤ x.pos := by
  have mono : ∀ s t, Run (.star item) s t → Run (.star (paramItem w)) s t := by
    intro s t h
    generalize hr : Re.star item = r at h
    induction h with
    | stop => exact .stop
    | once h1 hl _ _ ih2 => cases hr; exact .once (hsub _ _ h1) hl (ih2 rfl)
    | _ => simp at hr
  have r1 := hPr s _ hs
  obtain ⟨t2, r2, _⟩ := comment_run he (St.close .params s (adv s P (blanks ++ comment ++ e))) rfl
  have hsome : (go (.grp .params (.star item)) (go commentRe some) s).isSome = true :=
    go_complete _ _ _ (.grp r1) _ (go_complete _ _ _ r2 _ rfl)
  obtain ⟨x, hx⟩ := Option.isSome_iff_exists.1 hsome
  obtain ⟨t, h1, h2⟩ := go_sound _ _ _ _ hx
  obtain ⟨u, h3, h4⟩ := go_sound _ _ _ _ h2
  simp at h4; subst h4
  have hgo := hx
  cases h1 with
  | @grp _ _ _ t h1 =>
    obtain ⟨p, hp, pc, pv, pcaps⟩ := items_run w (mono _ _ h1)
    have htext : p ++ t.rest = P ++ (blanks ++ comment ++ e) := by rw [← hs, hp.text]
    have hcaps : u.caps = (.params, s.pos, p) :: s.caps := by
      rw [comment_caps h3, close_text .params hp, pcaps]
    obtain ⟨cc, hcc⟩ := run_between h3
    have hpos : s.pos ≤ u.pos := by
      rw [hcc.pos]
      show s.pos ≤ t.pos + _
      rw [hp.pos]; omega
    rcases split_suffix htext with ⟨b, e1, e2⟩ | ⟨b, hb, e1, e2⟩
    · have hbl : ∀ c ∈ b, isSpace c = true := by
        rw [List.append_assoc] at e2
        rcases split_suffix e2.symm with ⟨d, f1, f2⟩ | ⟨d, _, f1, _⟩
        · -- b reaches the comment: only when there is none
          rcases he.comment with h5 | ⟨_, cm, h5, _⟩
          · intro c hc
            rw [f1] at hc
            rcases List.mem_append.1 hc with m | m
            · exact he.blank c m
            · exact he.last c (by rw [show e = d ++ t.rest by rw [← f2, h5]; rfl]; simp [m])
          · cases d with
            | nil => rw [f1]; simpa using he.blank
            | cons y d =>
              exfalso
              rw [h5] at f2
              simp at f2
              have : inParams w ';' := pc ';' (by rw [e1, f1, ← f2.1]; simp)
              exact (inParams_not w ';' this).1 rfl
        · intro c hc
          exact he.blank c (by rw [f1]; simp [hc])
      refine ⟨u, b, t.rest, hgo, by rw [hcaps, e1], hbl, ?_, e2, hpos⟩
      intro hP0
      rcases pv with h5 | ⟨c, hc, hv⟩
      · rw [e1, hP0] at h5; simpa using h5
      · rw [e1, hP0] at hc
        have := hbl c (by simpa using hc)
        rw [hv] at this; simp at this
    · exfalso
      have hlast : b.getLast? = P.getLast? := by
        rw [e1, List.getLast?_append]
        cases hl : b.getLast? with
        | none => rw [List.getLast?_eq_none_iff] at hl; exact absurd hl hb
        | some y => rfl
      have hv : ∃ c ∈ b, isSpace c = false := by
        cases hl : b.getLast? with
        | none => rw [List.getLast?_eq_none_iff] at hl; exact absurd hl hb
        | some y => exact ⟨y, List.mem_of_getLast? hl, hPe y (by rw [← hlast, hl])⟩
      obtain ⟨a, c, r, f1, f2, f3⟩ := first_visible b hv
      have hh := comment_head h3 a c (r ++ (blanks ++ comment ++ e)) (by
        show t.rest = _
        rw [e2, f1]; simp) f2 f3
      have hn := inParams_not w c (hPc c (by rw [e1, f1]; simp))
      rcases hh with h | h
      · exact hn.1 h
      · exact hn.2 h

/-- The parameters are found whole, with some of the blanks that follow. -/
theorem go_params {P blanks comment e : Str} (hP : ParamsOk w P) (he : EndOk blanks comment e) (s : St) (hs : s.rest = P ++ (blanks ++ comment ++ e)) :
    ∃ x b rest, go (paramRe w) some s = some x ∧ x.caps = (.params, s.pos, P ++ b) :: s.caps ∧ (∀ c ∈ b, isSpace c = true) ∧ (P = [] → b = []) ∧
      blanks ++ comment ++ e = b ++ rest ∧ s.pos ≤ x.pos := by
  obtain ⟨x, b, rest, h1, h2⟩ := params_core w (fun _ _ h => h) hP.run hP.chars hP.ends he s hs
  refine ⟨x, b, rest, ?_, h2⟩
  unfold paramRe
  exact take_opt _ _ _ _ _ h1

/-- Nothing but blanks, or a comment can follow the value. -/
theorem params_none (s : St) (c : Char) (r : Str) (hs : s.rest = c :: r) (hc : isSpace c = false) (h1 : c ≠ ';') (h2 : c ≠ '\\') :
    go (paramRe w) some s = none := by
  apply go_none
  intro t ht
  exfalso
  unfold paramRe at ht
  have nocap : ∀ u, Run (.star (paramItem w)) s u → u.rest = s.rest := by
    intro u hu
    cases hu with
    | stop => rfl
    | once h _ _ =>
      unfold paramItem at h
      cases h with
      | seq h3 _ =>
        obtain ⟨a, ha, hb, hp, _⟩ := run_plus_cls h3
        obtain ⟨y, a', rfl⟩ := List.exists_cons_of_ne_nil ha
        have := hb.text
        rw [hs] at this
        simp at this
        have h5 := hp y (by simp)
        rw [← this.1, hc] at h5; simp at h5
  cases ht with
  | seq h3 h4 =>
    cases h3 with
    | left h3 =>
      cases h3 with
      | grp h3 =>
        have := comment_head h4 [] c r (by show (St.close _ _ _).rest = _; simp only [St.close]; rw [nocap _ h3, hs]; rfl) (by simp) hc
        rcases this with h | h
        · exact h1 h
        · exact h2 h
    | right h3 =>
      cases h3
      rcases comment_head h4 [] c r (by rw [hs]; rfl) (by simp) hc with h | h
      · exact h1 h
      · exact h2 h

/-! ### The value -/

/-- All characters an expression can consume have the property. -/
def AllIn (P : Char → Prop) : Re → Prop
  | .nil => True | .eol => True
  | .cls p => ∀ c, p c = true → P c
  | .seq a b => AllIn P a ∧ AllIn P b
  | .alt a b => AllIn P a ∧ AllIn P b
  | .star a => AllIn P a
  | .lazy a => AllIn P a
  | .grp _ a => AllIn P a
  | .cond _ a b => AllIn P a ∧ AllIn P b

theorem run_in {P : Char → Prop} {r : Re} {s t : St} (h : Run r s t) (hr : AllIn P r) : ∃ a, Between s t a ∧ ∀ c ∈ a, P c := by
  have app : ∀ {a b : Str}, (∀ c ∈ a, P c) → (∀ c ∈ b, P c) → ∀ c ∈ a ++ b, P c := by
    intro a b ha hb c hc
    rcases List.mem_append.1 hc with m | m
    · exact ha c m
    · exact hb c m
  induction h with
  | nil => exact ⟨[], .refl _, by simp⟩
  | @cls p s c r hc hp => exact ⟨[c], ⟨hc, rfl⟩, by intro d hd; simp at hd; subst hd; exact hr d hp⟩
  | seq _ _ ih1 ih2 => obtain ⟨a, h1, h2⟩ := ih1 hr.1; obtain ⟨b, h3, h4⟩ := ih2 hr.2; exact ⟨a ++ b, h1.trans h3, app h2 h4⟩
  | left _ ih => exact ih hr.1
  | right _ ih => exact ih hr.2
  | stop => exact ⟨[], .refl _, by simp⟩
  | once _ _ _ ih1 ih2 => obtain ⟨a, h1, h2⟩ := ih1 hr; obtain ⟨b, h3, h4⟩ := ih2 hr; exact ⟨a ++ b, h1.trans h3, app h2 h4⟩
  | lstop => exact ⟨[], .refl _, by simp⟩
  | lonce _ _ _ ih1 ih2 => obtain ⟨a, h1, h2⟩ := ih1 hr; obtain ⟨b, h3, h4⟩ := ih2 hr; exact ⟨a ++ b, h1.trans h3, app h2 h4⟩
  | grp _ ih => obtain ⟨a, h1, h2⟩ := ih hr; exact ⟨a, ⟨h1.text, h1.pos⟩, h2⟩
  | yes _ _ ih => exact ih hr.1
  | no _ _ ih => exact ih hr.2
  | eol _ => exact ⟨[], .refl _, by simp⟩

/-- Neither a blank, nor a quote, nor a brace. -/
def Bare (c : Char) : Prop := isSpace c = false ∧ c ∉ ['"', '\'', '{', '}']

theorem bare_lower (l : List Char) (hl : ∀ c ∈ l, c.toNat < 128 → Bare c) (hl2 : ∀ c ∈ l, 128 ≤ c.toNat → Bare c) (c : Char)
    (h : l.contains c = true ∨ l.contains c.toLower = true) : Bare c := by
  have base : ∀ d ∈ l, Bare d := fun d hd => if h : d.toNat < 128 then hl d hd h else hl2 d hd (by omega)
  rcases h with h | h
  · exact base c (by simpa using h)
  · have hb := base c.toLower (by simpa using h)
    by_cases hc : c.toNat < 128
    · revert hb
      have := Lemmas.PyStr.ascii_ind (P := fun c => Bare c.toLower → Bare c) (by unfold Bare; decide +kernel) c hc
      exact this
    · rw [Lemmas.PyStr.toLower_big c (by omega)] at hb; exact hb

theorem bare_among (l : List Char) (hl : ∀ c ∈ l, Bare c) : AllIn Bare (among l) := by
  intro c hc
  exact bare_lower l (fun c hc _ => hl c hc) (fun c hc _ => hl c hc) c (by simpa using hc)

theorem bare_digit : AllIn Bare digit := by
  intro c hc
  have hb := Lemmas.PyStr.digit_props c hc
  revert hc
  exact Lemmas.PyStr.ascii_ind (P := fun c => c.isDigit = true → Bare c) (by unfold Bare; decide +kernel) c hb.2.2.2.2

theorem bare_ci (c : Char) (hc : Bare c) (hl : c.toNat < 128) : AllIn Bare (ci c) := by
  intro d hd
  simp only [Bool.or_eq_true, decide_eq_true_eq] at hd
  rcases hd with rfl | hd
  · exact hc
  · by_cases hb : d.toNat < 128
    · rw [← hd] at hc
      exact Lemmas.PyStr.ascii_ind (P := fun c => Bare c.toUpper → Bare c) (by unfold Bare; decide +kernel) d hb hc
    · rw [Lemmas.PyStr.toUpper_big d (by omega)] at hd; rw [hd]; exact hc

theorem bare_suffix : AllIn Bare suffixR ∧ AllIn Bare suffixC ∧ AllIn Bare suffixL := by
  have hm : AllIn Bare meg := ⟨bare_ci _ (by unfold Bare; decide) (by decide), bare_ci _ (by unfold Bare; decide) (by decide), bare_ci _ (by unfold Bare; decide) (by decide)⟩
  refine ⟨⟨⟨⟨hm, bare_among _ (by unfold Bare; decide)⟩, trivial⟩, ⟨bare_ci _ (by unfold Bare; decide) (by decide), trivial⟩, bare_digit⟩,
    ⟨⟨bare_among _ (by unfold Bare; decide), trivial⟩, ⟨bare_ci _ (by unfold Bare; decide) (by decide), trivial⟩, bare_digit⟩,
    ⟨⟨⟨hm, bare_among _ (by unfold Bare; decide)⟩, trivial⟩, ⟨bare_ci _ (by unfold Bare; decide) (by decide), trivial⟩, bare_digit⟩⟩

theorem number_run {suffix : Re} (hsuf : AllIn Bare suffix) {s t : St} (h : Run (numberRe suffix) s t) :
    ∃ a, a ≠ [] ∧ Between s t a ∧ ∀ c ∈ a, Bare c := by
  have hall : AllIn Bare (numberRe suffix) := by
    refine ⟨⟨bare_among _ (by unfold Bare; decide), trivial⟩, bare_digit, ⟨?_, trivial⟩, ⟨bare_digit, bare_digit⟩, ⟨⟨bare_among _ (by unfold Bare; decide), ⟨bare_among _ (by unfold Bare; decide), trivial⟩, bare_digit, bare_digit⟩, trivial⟩, hsuf⟩
    intro c hc
    simp at hc; subst hc; unfold Bare; decide
  obtain ⟨a, h1, h2⟩ := run_in h hall
  refine ⟨a, ?_, h1, h2⟩
  unfold numberRe at h
  cases h with
  | seq r1 r2 =>
    cases r2 with
    | seq r3 r4 =>
      cases r4 with
      | seq r5 r6 =>
        cases r6 with
        | seq r7 r8 =>
          obtain ⟨a1, b1⟩ := run_between r1
          obtain ⟨a3, b3⟩ := run_between r3
          obtain ⟨a5, b5⟩ := run_between r5
          obtain ⟨a7, n7, b7, _⟩ := run_plus_cls r7
          obtain ⟨a8, b8⟩ := run_between r8
          have := h1.unique (b1.trans (b3.trans (b5.trans (b7.trans b8))))
          intro e
          rw [e] at this
          simp at this
          exact n7 this.2.2.2.1

/-- A value of a resistor, capacitor or inductor; `R` is what follows on the line. -/
inductive ValueOk (R : Str) : Str → Prop
  | plain (v : Str) (hne : v ≠ []) (hv : ∀ c ∈ v, isSpace c = false ∧ c ∉ ['"', '\'', '{', '}', ';', '\\', '=']) : ValueOk R v
  | braces (body : Str) (hb : '\n' ∉ body) (hR : '}' ∉ R) : ValueOk R ('{' :: body ++ ['}'])
  | double (body : Str) (hb : '\n' ∉ body) (hh : ∀ c, body.head? = some c → c ≠ '\'' ∧ c ≠ '{') (hR : '"' ∉ R) : ValueOk R ('"' :: body ++ ['"'])
  | single (body : Str) (hb : '\n' ∉ body) (hh : ∀ c, body.head? = some c → c ≠ '{') (hR : '\'' ∉ R) : ValueOk R ('\'' :: body ++ ['\''])

theorem go_quoted (q : Char) (hq : q ≠ '\n') (k : St → Option St) (s : St) (body R : Str) (hs : s.rest = body ++ q :: R) (hb : '\n' ∉ body) (hR : q ∉ R)
    (x : St) (h : k (adv s (body ++ [q]) R) = some x) : go (quoted q) k s = some x := by
  unfold quoted
  simp only [go]
  have hsplit := List.takeWhile_append_dropWhile (p := fun c => decide (c ≠ '\n')) (l := R)
  refine go_star_back _ _ s body (q :: R.takeWhile (fun c => decide (c ≠ '\n'))) (R.dropWhile (fun c => decide (c ≠ '\n'))) ?_ ?_ ?_ ?_ ?_ x ?_
  · rw [hs, List.cons_append, hsplit]
  · intro c hc
    simp only [ne_eq, decide_not, Bool.not_eq_eq_eq_not, Bool.not_true, decide_eq_false_iff_not]
    rintro rfl; exact hb hc
  · intro c hc
    rcases List.mem_cons.1 hc with rfl | m
    · simpa using hq
    · exact List.mem_takeWhile_imp (p := fun c => decide (c ≠ '\n')) m
  · intro c hc
    have := List.head?_dropWhile_not (fun c => decide (c ≠ '\n')) R
    rw [hc] at this
    simpa using this
  · intro b d e hne
    obtain ⟨y, b', rfl⟩ := List.exists_cons_of_ne_nil hne
    simp only [List.cons_append, List.cons.injEq] at e
    apply go_cls_none
    intro c hc
    simp only [adv] at hc
    simp only [decide_eq_false_iff_not]
    rintro rfl
    have : c ∈ d ++ R.dropWhile (fun c => decide (c ≠ '\n')) := List.mem_of_head? hc
    apply hR
    rw [← hsplit, e.2]
    simp only [List.mem_append] at this ⊢
    tauto
  · rw [List.cons_append, hsplit, show lit q = .cls (fun d => d = q) from rfl, go_cls _ _ _ q R rfl (by simp), adv_adv]
    exact h

def inner (l : List (G × Nat × Str)) : Prop := ∀ c ∈ l, c.1 ∈ [G.number, .formula1, .formula2, .formula3]

/-- No group of a value was matched before. -/
def Fresh (s : St) : Prop := s.has .number = false ∧ s.has .formula1 = false ∧ s.has .formula2 = false ∧ s.has .formula3 = false

theorem go_lit_none (q : Char) (k : St → Option St) (s : St) (h : s.rest.head? ≠ some q) : go (lit q) k s = none := by
  apply go_cls_none
  intro c hc
  simp only [decide_eq_false_iff_not]
  rintro rfl
  exact h hc

theorem go_grp_none (g : G) (a : Re) (k : St → Option St) (s : St) (h : ∀ t, ¬ Run a s t) : go (.grp g a) k s = none := by
  apply go_none
  intro t ht
  cases ht with
  | grp ht => exact absurd ht (h _)

theorem lit_no_run (q : Char) (s : St) (h : s.rest.head? ≠ some q) : ∀ t, ¬ Run (lit q) s t := by
  intro t ht
  cases ht with
  | @cls _ _ c r hr hp =>
    simp at hp; subst hp
    rw [hr] at h; simp at h

theorem number_no_run {suffix : Re} (hsuf : AllIn Bare suffix) (s : St) (c : Char) (r : Str) (hs : s.rest = c :: r) (hc : ¬ Bare c) : ∀ t, ¬ Run (numberRe suffix) s t := by
  intro t ht
  obtain ⟨a, ha, hb, hp⟩ := number_run hsuf ht
  obtain ⟨y, a', rfl⟩ := List.exists_cons_of_ne_nil ha
  have := hb.text
  rw [hs] at this
  simp at this
  exact hc (by rw [this.1]; exact hp y (by simp))

theorem has_close (g g' : G) (s t : St) : (St.close g s t).has g' = (decide (g = g') || t.has g') := by
  simp [St.has, St.close]

theorem go_grp (g : G) (a : Re) (k : St → Option St) (s : St) : go (.grp g a) k s = go a (fun t => k (St.close g s t)) s := rfl

theorem skip_opt {a : Re} {s : St} (h : ∀ t, ¬ Run a s t) (g : G) (b : Re) (k : St → Option St) : go (.seq (opt (.grp g a)) b) k s = go b k s :=
  go_opt_skip _ _ _ (go_grp_none g a _ s h)

theorem go_cond_no {s : St} (g : G) (h : s.has g = false) (a b : Re) (k : St → Option St) : go (.cond g a b) k s = go b k s := by
  simp only [go, h, Bool.false_eq_true, if_false]

theorem go_cond_yes {s : St} (g : G) (h : s.has g = true) (a b : Re) (k : St → Option St) : go (.cond g a b) k s = go a k s := by
  simp only [go, h, if_true]

theorem has_adv (s : St) (a r : Str) (g : G) : (adv s a r).has g = s.has g := rfl

theorem go_body {suffix : Re} (hsuf : AllIn Bare suffix) (hsn : names suffix = []) (k : St → Option St) (s : St) (v R : Str) (hs : s.rest = v ++ R) (hv : ValueOk R v) (hf : Fresh s)
    (hR : ∀ c, R.head? = some c → isSpace c = true)
    (hk1 : ∀ (t : St) (c : Char) (r : Str), t.rest = c :: r → isSpace c = false → c ≠ ';' → c ≠ '\\' → k t = none)
    (hk2 : ∀ t : St, t.rest = R → (k t).isSome = true) :
    ∃ t l, go (valueBody suffix) k s = k t ∧ (k t).isSome = true ∧ t.rest = R ∧ t.pos = s.pos + v.length ∧ t.caps = (.value, s.pos, v) :: (l ++ s.caps) ∧ inner l := by
  cases hv with
  | plain _ hne hv =>
    -- there is a match
    have hrun : Run (valueBody suffix) s (St.close .value s (adv s v R)) := by
      unfold valueBody
      refine .grp (.seq (.right .nil) (.seq (.right .nil) (.seq (.right .nil) (.seq (.right .nil) ?_))))
      refine .no hf.1 (.no hf.2.1 (.no hf.2.2.1 (.no hf.2.2.2 ?_)))
      refine star_cls_run v s R hs ?_
      intro c hc
      simp [(hv c hc).1]
    have hsome := go_complete _ _ _ hrun k (hk2 _ rfl)
    obtain ⟨x, hx⟩ := Option.isSome_iff_exists.1 hsome
    obtain ⟨t, ht, hkt⟩ := go_sound _ _ _ _ hx
    unfold valueBody at ht
    cases ht with
    | @grp _ _ _ t ht =>
      obtain ⟨u, hu⟩ := run_between ht
      obtain ⟨l, hl, hln⟩ := run_caps ht
      have hhead : ∃ y v', v = y :: v' := List.exists_cons_of_ne_nil hne
      obtain ⟨y, v', hy⟩ := hhead
      have yq := (hv y (by rw [hy]; simp)).2
      have hsy : s.rest = y :: (v' ++ R) := by rw [hs, hy]; rfl
      -- what was consumed is visible
      have hvis : ∀ c ∈ u, isSpace c = false := by
        cases ht with
        | seq r1 r2 =>
          cases r1 with
          | left r1 =>
            cases r1 with
            | @grp _ _ _ t1 r1 =>
              obtain ⟨a, _, ha, hp⟩ := number_run hsuf r1
              have hha : (St.close .number s t1).has .number = true := by simp [St.has, St.close]
              have : ∀ (z : St), (∃ l, z.caps = l ++ (St.close .number s t1).caps) → z.has .number = true := by
                rintro z ⟨l, hz⟩
                simp only [St.has, hz, List.any_append, Bool.or_eq_true]
                right; exact hha
              cases r2 with
              | seq r3 r4 =>
                cases r4 with
                | seq r5 r6 =>
                  cases r6 with
                  | seq r7 r8 =>
                    have optl : ∀ (g : G) (q : Char) (s1 s2 : St), isSpace q = false → Run (opt (.grp g (lit q))) s1 s2 →
                        ∃ b, Between s1 s2 b ∧ (∀ c ∈ b, isSpace c = false) ∧ ∃ l, s2.caps = l ++ s1.caps := by
                      intro g q s1 s2 hq hr
                      obtain ⟨l, e, _⟩ := run_caps hr
                      obtain ⟨b, hb, hb2⟩ := run_in (P := fun c => isSpace c = false) hr (by
                        refine ⟨?_, trivial⟩
                        intro c hc; simp at hc; subst hc; exact hq)
                      exact ⟨b, hb, hb2, l, e⟩
                    obtain ⟨b1, c1, d1, l1, e1⟩ := optl _ _ _ _ (by decide) r3
                    obtain ⟨b2, c2, d2, l2, e2⟩ := optl _ _ _ _ (by decide) r5
                    obtain ⟨b3, c3, d3, l3, e3⟩ := optl _ _ _ _ (by decide) r7
                    have hnum := this _ ⟨l3 ++ l2 ++ l1, by rw [e3, e2, e1]; simp⟩
                    cases r8 with
                    | no hn _ => rw [hnum] at hn; simp at hn
                    | yes _ r8 =>
                      cases r8
                      have hw := hu.unique (((Between.trans (s := s) (t := St.close .number s t1) ⟨ha.text, ha.pos⟩ c1).trans c2).trans c3)
                      rw [hw]
                      intro c hc
                      simp only [List.mem_append] at hc
                      rcases hc with ((m | m) | m) | m
                      · exact (hp c m).1
                      · exact d1 c m
                      · exact d2 c m
                      · exact d3 c m
          | right r1 =>
            cases r1
            have skip : ∀ (g : G) (q : Char) (z : St), y ≠ q → Run (opt (.grp g (lit q))) s z → z = s := by
              intro g q z hq hr
              cases hr with
              | left hr =>
                cases hr with
                | grp hr => exact absurd hr (lit_no_run q s (by rw [hsy]; simpa using hq) _)
              | right hr => cases hr; rfl
            simp only [List.mem_cons, List.not_mem_nil, or_false, not_or] at yq
            cases r2 with
            | seq r3 r4 =>
              have e3 := skip _ _ _ yq.1 r3
              subst e3
              cases r4 with
              | seq r5 r6 =>
                have e5 := skip _ _ _ yq.2.1 r5
                subst e5
                cases r6 with
                | seq r7 r8 =>
                  have e7 := skip _ _ _ yq.2.2.1 r7
                  subst e7
                  cases r8 with
                  | yes h _ => rw [hf.1] at h; simp at h
                  | no _ r8 =>
                    cases r8 with
                    | yes h _ => rw [hf.2.1] at h; simp at h
                    | no _ r8 =>
                      cases r8 with
                      | yes h _ => rw [hf.2.2.1] at h; simp at h
                      | no _ r8 =>
                        cases r8 with
                        | yes h _ => rw [hf.2.2.2] at h; simp at h
                        | no _ r8 =>
                          obtain ⟨a, ha, hp, _⟩ := run_star_cls r8
                          rw [hu.unique ha]
                          intro c hc
                          simpa using hp c hc
      have htext : u ++ t.rest = v ++ R := by rw [← hs, hu.text]
      have huv : u = v ∧ t.rest = R := by
        rcases split_suffix htext with ⟨b, e1, e2⟩ | ⟨b, hb, e1, e2⟩
        · cases b with
          | nil => exact ⟨by simpa using e1, by simpa using e2.symm⟩
          | cons z b =>
            exfalso
            have h1 := hR z (by rw [e2]; rfl)
            rw [hvis z (by rw [e1]; simp)] at h1; simp at h1
        · exfalso
          obtain ⟨z, b', rfl⟩ := List.exists_cons_of_ne_nil hb
          have hz := hv z (by rw [e1]; simp)
          simp only [List.mem_cons, List.not_mem_nil, or_false, not_or] at hz
          rw [hk1 _ z (b' ++ R) (by show t.rest = _; rw [e2]; rfl) hz.1 hz.2.2.2.2.2.1 hz.2.2.2.2.2.2.1] at hkt
          simp at hkt
      refine ⟨St.close .value s t, l, by rw [hx, hkt], by rw [hkt]; rfl, huv.2, ?_, ?_, ?_⟩
      · show t.pos = _
        rw [hu.pos, huv.1]
      · rw [close_text .value hu, huv.1, hl]
      · intro c hc
        have := hln c hc
        simp only [names, opt, List.mem_append, List.mem_cons] at this
        have hnn : names (numberRe suffix) = [] := by simp [names, numberRe, opt, plus, among, digit, lit, exponentRe, hsn]
        rw [hnn] at this
        simp [names, lit, quoted, dot] at this
        simp
        tauto
  | braces body hb hR2 =>
    have hs1 : s.rest = '{' :: (body ++ '}' :: R) := by rw [hs]; simp
    let t3 : St := St.close .formula3 s (adv s ['{'] (body ++ '}' :: R))
    have ht3 : t3.caps = (.formula3, s.pos, ['{']) :: s.caps := by
      have := close_text .formula3 (s := s) (t := adv s ['{'] (body ++ '}' :: R)) (a := ['{']) ⟨hs1, rfl⟩
      exact this
    let t4 : St := adv t3 (body ++ ['}']) R
    let t : St := St.close .value s t4
    have hb4 : Between s t4 ('{' :: body ++ ['}']) := ⟨by rw [hs1]; simp [t4, adv], by simp [t4, t3, adv, St.close]; omega⟩
    obtain ⟨x, hx⟩ := Option.isSome_iff_exists.1 (hk2 t rfl)
    refine ⟨t, [(.formula3, s.pos, ['{'])], ?_, by rw [hx]; rfl, rfl, hb4.pos, ?_, by intro c hc; simp at hc; subst hc; simp⟩
    · rw [hx]
      unfold valueBody
      rw [go_grp, skip_opt (number_no_run hsuf s '{' _ hs1 (by unfold Bare; decide)), skip_opt (lit_no_run '"' s (by rw [hs1]; simp)),
        skip_opt (lit_no_run '\'' s (by rw [hs1]; simp))]
      apply take_opt
      rw [go_grp, show lit '{' = .cls (fun d => d = '{') from rfl, go_cls _ _ s '{' _ hs1 (by decide)]
      show go _ _ t3 = _
      rw [go_cond_no _ (by simpa [t3, has_close, has_adv] using hf.1), go_cond_no _ (by simpa [t3, has_close, has_adv] using hf.2.1),
        go_cond_no _ (by simpa [t3, has_close, has_adv] using hf.2.2.1), go_cond_yes _ (by simp [t3, has_close])]
      exact go_quoted '}' (by decide) _ t3 body R rfl hb hR2 x hx
    · exact (close_text .value hb4).trans (by rw [show t4.caps = t3.caps from rfl, ht3]; rfl)
  | double body hb hh hR2 =>
    have hs1 : s.rest = '"' :: (body ++ '"' :: R) := by rw [hs]; simp
    let t3 : St := St.close .formula1 s (adv s ['"'] (body ++ '"' :: R))
    have ht3 : t3.caps = (.formula1, s.pos, ['"']) :: s.caps := close_text .formula1 (s := s) (t := adv s ['"'] (body ++ '"' :: R)) (a := ['"']) ⟨hs1, rfl⟩
    let t4 : St := adv t3 (body ++ ['"']) R
    let t : St := St.close .value s t4
    have hb4 : Between s t4 ('"' :: body ++ ['"']) := ⟨by rw [hs1]; simp [t4, adv], by simp [t4, t3, adv, St.close]; omega⟩
    obtain ⟨x, hx⟩ := Option.isSome_iff_exists.1 (hk2 t rfl)
    refine ⟨t, [(.formula1, s.pos, ['"'])], ?_, by rw [hx]; rfl, rfl, hb4.pos, ?_, by intro c hc; simp at hc; subst hc; simp⟩
    · rw [hx]
      unfold valueBody
      rw [go_grp, skip_opt (number_no_run hsuf s '"' _ hs1 (by unfold Bare; decide))]
      apply take_opt
      rw [go_grp, show lit '"' = .cls (fun d => d = '"') from rfl, go_cls _ _ s '"' _ hs1 (by decide)]
      show go _ _ t3 = _
      have hne : ∀ q : Char, (q = '\'' ∨ q = '{') → t3.rest.head? ≠ some q := by
        intro q hq
        show (body ++ '"' :: R).head? ≠ some q
        cases body with
        | nil => simp; rcases hq with rfl | rfl <;> decide
        | cons y b =>
          have := hh y rfl
          simp
          rcases hq with rfl | rfl
          · exact this.1
          · exact this.2
      rw [skip_opt (lit_no_run '\'' t3 (hne _ (Or.inl rfl))), skip_opt (lit_no_run '{' t3 (hne _ (Or.inr rfl))),
        go_cond_no _ (by simpa [t3, has_close, has_adv] using hf.1), go_cond_yes _ (by simp [t3, has_close])]
      exact go_quoted '"' (by decide) _ t3 body R rfl hb hR2 x hx
    · exact (close_text .value hb4).trans (by rw [show t4.caps = t3.caps from rfl, ht3]; rfl)
  | single body hb hh hR2 =>
    have hs1 : s.rest = '\'' :: (body ++ '\'' :: R) := by rw [hs]; simp
    let t3 : St := St.close .formula2 s (adv s ['\''] (body ++ '\'' :: R))
    have ht3 : t3.caps = (.formula2, s.pos, ['\'']) :: s.caps := close_text .formula2 (s := s) (t := adv s ['\''] (body ++ '\'' :: R)) (a := ['\'']) ⟨hs1, rfl⟩
    let t4 : St := adv t3 (body ++ ['\'']) R
    let t : St := St.close .value s t4
    have hb4 : Between s t4 ('\'' :: body ++ ['\'']) := ⟨by rw [hs1]; simp [t4, adv], by simp [t4, t3, adv, St.close]; omega⟩
    obtain ⟨x, hx⟩ := Option.isSome_iff_exists.1 (hk2 t rfl)
    refine ⟨t, [(.formula2, s.pos, ['\''])], ?_, by rw [hx]; rfl, rfl, hb4.pos, ?_, by intro c hc; simp at hc; subst hc; simp⟩
    · rw [hx]
      unfold valueBody
      rw [go_grp, skip_opt (number_no_run hsuf s '\'' _ hs1 (by unfold Bare; decide)), skip_opt (lit_no_run '"' s (by rw [hs1]; simp))]
      apply take_opt
      rw [go_grp, show lit '\'' = .cls (fun d => d = '\'') from rfl, go_cls _ _ s '\'' _ hs1 (by decide)]
      show go _ _ t3 = _
      have hne : t3.rest.head? ≠ some '{' := by
        show (body ++ '\'' :: R).head? ≠ some '{'
        cases body with
        | nil => simp
        | cons y b => simpa using hh y rfl
      rw [skip_opt (lit_no_run '{' t3 hne), go_cond_no _ (by simpa [t3, has_close, has_adv] using hf.1), go_cond_no _ (by simpa [t3, has_close, has_adv] using hf.2.1),
        go_cond_yes _ (by simp [t3, has_close])]
      exact go_quoted '\'' (by decide) _ t3 body R rfl hb hR2 x hx
    · exact (close_text .value hb4).trans (by rw [show t4.caps = t3.caps from rfl, ht3]; rfl)

/-- The optional `R=` before a value. -/
def PreOk (c : Char) (pre : Str) : Prop :=
  pre = [] ∨ ∃ (a : Char) (b1 b2 : Str), pre = a :: (b1 ++ '=' :: b2) ∧ (a = c ∨ a.toUpper = c) ∧ b1.length ≤ 1 ∧ b2.length ≤ 1 ∧
    (∀ x ∈ b1, isSpace x = true) ∧ (∀ x ∈ b2, isSpace x = true)

theorem value_head {R v : Str} (h : ValueOk R v) : ∃ y v', v = y :: v' ∧ isSpace y = false ∧ y ≠ '=' := by
  cases h with
  | plain _ hne hv =>
    obtain ⟨y, v', rfl⟩ := List.exists_cons_of_ne_nil hne
    have := hv y (by simp)
    exact ⟨y, v', rfl, this.1, by rintro rfl; simp at this⟩
  | braces body _ _ => exact ⟨'{', body ++ ['}'], rfl, by decide, by decide⟩
  | double body _ _ _ => exact ⟨'"', body ++ ['"'], rfl, by decide, by decide⟩
  | single body _ _ _ => exact ⟨'\'', body ++ ['\''], rfl, by decide, by decide⟩

theorem go_opt_sp (k : St → Option St) (s : St) (b r : Str) (hs : s.rest = b ++ r) (hb : b.length ≤ 1) (hbs : ∀ x ∈ b, isSpace x = true)
    (hr : ∀ c, r.head? = some c → isSpace c = false) (x : St) (h : k (adv s b r) = some x) : go (opt sp) k s = some x := by
  cases b with
  | nil =>
    rw [go_opt_skip sp _ _ (go_cls_none _ _ _ (by rw [hs]; exact hr))]
    rw [show r = s.rest by simpa using hs.symm, adv_nil] at h
    exact h
  | cons y b =>
    have : b = [] := by cases b with | nil => rfl | cons _ _ => simp at hb
    subst this
    show (go sp k s).or _ = some x
    rw [show sp = .cls isSpace from rfl, go_cls _ _ s y r hs (hbs y (by simp)), h]
    rfl

theorem prefix_shape (c : Char) {s t : St} (h : Run (.seq (ci c) (.seq (opt sp) (.seq (lit '=') (opt sp)))) s t) :
    ∃ (a : Char) (q : Str), s.rest = a :: q ∧ (a = c ∨ a.toUpper = c) ∧ (q.head? = some '=' ∨ ∃ (b : Char) (q' : Str), q = b :: q' ∧ isSpace b = true ∧ q'.head? = some '=') := by
  cases h with
  | seq r1 r2 =>
    cases r1 with
    | @cls _ _ a q hq ha =>
      refine ⟨a, q, hq, by simpa using ha, ?_⟩
      cases r2 with
      | seq r3 r4 =>
        cases r4 with
        | seq r5 r6 =>
          cases r5 with
          | @cls _ _ d2 q2 hq2 hd2 =>
            simp at hd2; subst hd2
            cases r3 with
            | right r3 =>
              cases r3
              left
              rw [show q = '=' :: q2 from hq2]; rfl
            | left r3 =>
              cases r3 with
              | @cls _ _ b q3 hq3 hb =>
                right
                refine ⟨b, q3, hq3, hb, ?_⟩
                rw [show q3 = '=' :: q2 from hq2]; rfl

/-- The value of a resistor, a capacitor or an inductor. -/
theorem go_value {suffix : Re} (hsuf : AllIn Bare suffix) (hsn : names suffix = []) (c : Char) (hc : c.isAlpha = true) (hcu : c.toUpper = c) (k : St → Option St) (s : St) (gap pre v R : Str)
    (hs : s.rest = gap ++ (pre ++ (v ++ R))) (hg : gap ≠ []) (hgs : ∀ x ∈ gap, isSpace x = true) (hpre : PreOk c pre) (hv : ValueOk R v) (hf : Fresh s)
    (hR : ∀ c, R.head? = some c → isSpace c = true) (hR2 : ∀ b r, R = b :: r → r.head? ≠ some '=')
    (hk1 : ∀ (t : St) (c : Char) (r : Str), t.rest = c :: r → isSpace c = false → c ≠ ';' → c ≠ '\\' → k t = none)
    (hk2 : ∀ t : St, t.rest = R → (k t).isSome = true) :
    ∃ t l, go (valueRe c suffix) k s = k t ∧ (k t).isSome = true ∧ t.rest = R ∧ t.pos = s.pos + (gap ++ pre ++ v).length ∧
      t.caps = (.value, s.pos + (gap ++ pre).length, v) :: (l ++ s.caps) ∧ inner l := by
  obtain ⟨y, v', hy, hys, hye⟩ := value_head hv
  let s2 : St := adv s (gap ++ pre) (v ++ R)
  obtain ⟨t, l, h1, h2, h3, h4, h5, h6⟩ := go_body hsuf hsn k s2 v R rfl hv hf hR hk1 hk2
  obtain ⟨x, hx⟩ := Option.isSome_iff_exists.1 h2
  rw [hx] at h1
  have hvh : ∀ c, (v ++ R).head? = some c → isSpace c = false := by
    intro d hd; rw [hy] at hd; simp at hd; subst hd; exact hys
  have ca : ∀ a : Char, (a = c ∨ a.toUpper = c) → isSpace a = false := by
    intro a ha
    by_contra hsp
    have hsp' : isSpace a = true := by simpa using hsp
    have hw := Lemmas.ParamRegex.space_facts a hsp'
    have ha : a.toUpper = c := by rcases ha with rfl | ha; exacts [hcu, ha]
    rw [Lemmas.ParamRegex.upper_word a c ha hc] at hw; simp at hw
  have hq : ∀ a ∈ ['{', '"', '\''], ¬ (a = c ∨ a.toUpper = c) := by
    intro a ha h
    have h : a.toUpper = c := by rcases h with rfl | h; exacts [hcu, h]
    simp only [List.mem_cons, List.not_mem_nil, or_false] at ha
    rw [← h] at hc
    rcases ha with rfl | rfl | rfl <;> revert hc <;> decide
  refine ⟨t, l, ?_, h2, h3, ?_, ?_, h6⟩
  · rw [hx]
    unfold valueRe
    refine go_plus _ _ s gap (pre ++ (v ++ R)) hg hs hgs ?_ x ?_
    · intro d hd
      rcases hpre with rfl | ⟨a, b1, b2, rfl, ha, _⟩
      · exact hvh d (by simpa using hd)
      · simp at hd; subst hd; exact ca a ha
    · rcases hpre with rfl | ⟨a, b1, b2, rfl, ha, l1, l2, hb1, hb2⟩
      · show go (valuePrefix c) (go (valueBody suffix) k) _ = _
        unfold valuePrefix
        rw [go_opt_skip]
        · simpa [s2] using h1
        · apply go_none
          intro z hz
          exfalso
          obtain ⟨a, q, e1, ha, e2⟩ := prefix_shape c hz
          have e1' : v ++ R = a :: q := by simpa [adv] using e1
          cases hv with
          | plain _ _ hvc =>
            cases v' with
            | nil =>
              rw [hy] at e1'
              have eq : R = q := by simpa using (List.cons.inj e1').2
              rcases e2 with e2 | ⟨b, q', e2, _, e3⟩
              · have := hR '=' (by rw [eq, e2]); revert this; decide
              · exact hR2 b q' (by rw [eq, e2]) e3
            | cons z v' =>
              rw [hy] at e1'
              have eq : q = z :: (v' ++ R) := by simpa using (List.cons.inj e1').2.symm
              have hz := hvc z (by rw [hy]; simp)
              rcases e2 with e2 | ⟨b, q', e2, hb, _⟩
              · rw [eq] at e2; simp at e2; subst e2; simp at hz
              · rw [eq] at e2; simp at e2
                rw [← e2.1, hz.1] at hb; simp at hb
          | braces body _ _ => simp at e1'; exact absurd ha (hq a (by rw [← e1'.1]; simp))
          | double body _ _ _ => simp at e1'; exact absurd ha (hq a (by rw [← e1'.1]; simp))
          | single body _ _ _ => simp at e1'; exact absurd ha (hq a (by rw [← e1'.1]; simp))
      · show go (valuePrefix c) (go (valueBody suffix) k) _ = _
        unfold valuePrefix
        have hs1 : (adv s gap (a :: (b1 ++ '=' :: b2) ++ (v ++ R))).rest = a :: (b1 ++ ('=' :: (b2 ++ (v ++ R)))) := by simp [adv]
        have : go (.seq (ci c) (.seq (opt sp) (.seq (lit '=') (opt sp)))) (go (valueBody suffix) k) (adv s gap (a :: (b1 ++ '=' :: b2) ++ (v ++ R))) = some x := by
          rw [go_seq, show ci c = .cls (fun d => d = c || d.toUpper = c) from rfl, go_cls _ _ _ a _ hs1 (by simpa using ha)]
          refine go_opt_sp _ _ b1 ('=' :: (b2 ++ (v ++ R))) rfl l1 hb1 (by intro d hd; simp at hd; subst hd; decide) x ?_
          rw [go_seq, show lit '=' = .cls (fun d => d = '=') from rfl, go_cls _ _ _ '=' _ rfl (by decide)]
          refine go_opt_sp _ _ b2 (v ++ R) rfl l2 hb2 hvh x ?_
          simp only [adv_adv]
          have e : gap ++ [a] ++ b1 ++ ['='] ++ b2 = gap ++ (a :: (b1 ++ '=' :: b2)) := by simp
          have e2 : ∀ X Y : Str, adv (adv s gap X) Y (v ++ R) = adv s (gap ++ Y) (v ++ R) := fun X Y => adv_adv s gap Y X (v ++ R)
          simp only [List.append_assoc, List.cons_append, List.nil_append] at h1 ⊢
          simpa [s2] using h1
        show (go _ _ _).or _ = some x
        rw [this]; rfl
  · rw [h4]; simp [s2, adv]; omega
  · rw [h5]; rfl

/-! ### Whole lines -/

theorem end_head {blanks comment e : Str} (he : EndOk blanks comment e) : ∀ c, (blanks ++ comment ++ e).head? = some c → isSpace c = true := by
  intro c hc
  cases blanks with
  | cons y b => simp at hc; subst hc; exact he.blank y (by simp)
  | nil =>
    rcases he.comment with h1 | ⟨h1, _⟩
    · subst h1
      cases e with
      | nil => simp at hc
      | cons y e => simp at hc; subst hc; exact he.last y (by simp)
    · simp at h1

theorem end_second {blanks comment e : Str} (he : EndOk blanks comment e) : '=' ∉ blanks ∧ comment.head? ≠ some '=' ∧ '=' ∉ e := by
  refine ⟨?_, ?_, ?_⟩
  · intro h; have := he.blank _ h; revert this; decide
  · rcases he.comment with h1 | ⟨_, cm, h1, _⟩
    · rw [h1]; simp
    · rw [h1]; simp
  · intro h; have := he.last _ h; revert this; decide

theorem rest_head {P blanks comment e : Str} (hP : ParamsOk w P) (he : EndOk blanks comment e) :
    ∀ c, (P ++ (blanks ++ comment ++ e)).head? = some c → isSpace c = true := by
  intro c hc
  cases P with
  | nil => exact end_head he c hc
  | cons y P => simp at hc; subst hc; exact hP.starts y rfl

theorem rest_second {P blanks comment e : Str} (hP : ParamsOk w P) (he : EndOk blanks comment e) :
    ∀ b r, P ++ (blanks ++ comment ++ e) = b :: r → r.head? ≠ some '=' := by
  intro b r h
  cases P with
  | cons y P =>
    simp only [List.cons_append, List.cons.injEq] at h
    cases P with
    | nil =>
      have h1 := hP.starts y rfl
      have h2 := hP.ends y rfl
      rw [h1] at h2; simp at h2
    | cons z P =>
      have := hP.second y (z :: P) rfl
      rw [← h.2]; exact this
  | nil =>
    obtain ⟨h1, h2, h3⟩ := end_second he
    rw [List.nil_append] at h
    cases blanks with
    | cons y bl =>
      simp only [List.cons_append, List.cons.injEq] at h
      rw [← h.2]
      intro hh
      cases bl with
      | cons z bl => simp at hh; subst hh; exact h1 (by simp)
      | nil =>
        cases hcm : comment with
        | cons z cm => rw [hcm] at hh h2; simp at hh h2; exact h2 hh
        | nil => rw [hcm] at hh; exact h3 (List.mem_of_head? (by simpa using hh))
    | nil =>
      rcases he.comment with h4 | ⟨h4, _⟩
      · rw [h4] at h
        intro hh
        exact h3 (by rw [show e = b :: r by simpa using h]; exact List.mem_cons_of_mem _ (List.mem_of_head? hh))
      · simp at h4

/-- What the groups of a match hold. -/
structure Found (x : St) (D N gap pre v P b : Str) : Prop where
  designator : x.get .designator = some (0, D)
  nodes : x.get .nodes = some (D.length, N)
  value : x.get .value = some ((D ++ N ++ gap ++ pre).length, v)
  params : x.get .params = some ((D ++ N ++ gap ++ pre ++ v).length, P ++ b)
  pos : x.pos ≠ 0

theorem found_of_caps (x : St) (D N gap pre v P b : Str) (l : List (G × Nat × Str)) (hl : inner l) (hpos : x.pos ≠ 0)
    (h : x.caps = (.params, (D ++ N ++ gap ++ pre ++ v).length, P ++ b) :: (.value, (D ++ N ++ gap ++ pre).length, v) :: (l ++ [(.nodes, D.length, N), (.designator, 0, D)])) :
    Found x D N gap pre v P b := by
  have look : ∀ (g : G) (r : List (G × Nat × Str)), g ∉ [G.number, .formula1, .formula2, .formula3] → (l ++ r).lookup g = r.lookup g := by
    intro g r hg
    clear h
    induction l with
    | nil => rfl
    | cons y l ih =>
      have h1 := hl y (by simp)
      have : (g == y.1) = false := by
        rw [beq_eq_false_iff_ne]
        rintro rfl
        exact hg h1
      obtain ⟨y1, y2⟩ := y
      simp only [List.cons_append, List.lookup, this]
      exact ih (fun c hc => hl c (by simp [hc]))
  have e1 : (G.designator == G.params) = false := by decide
  have e2 : (G.designator == G.value) = false := by decide
  have e3 : (G.nodes == G.params) = false := by decide
  have e4 : (G.nodes == G.value) = false := by decide
  have e5 : (G.value == G.params) = false := by decide
  have e6 : (G.designator == G.nodes) = false := by decide
  refine ⟨?_, ?_, ?_, ?_, hpos⟩
  · unfold St.get; rw [h]
    simp only [List.lookup, e1, e2]
    rw [look _ _ (by decide)]
    simp only [List.lookup, e6]
    rfl
  · unfold St.get; rw [h]
    simp only [List.lookup, e3, e4]
    rw [look _ _ (by decide)]
    rfl
  · unfold St.get; rw [h]
    simp only [List.lookup, e5]
    rfl
  · unfold St.get; rw [h]
    rfl

/-- The pieces of a line before the value. -/
structure HeadOk (c : Char) (D : Str) (ns : List (Str × Str)) : Prop where
  designator : ∃ (a : Char) (mark d : Str), D = a :: (mark ++ d) ∧ (a = c ∨ a.toUpper = c) ∧ (mark = [] ∨ mark = ['§']) ∧ d ≠ [] ∧ ∀ x ∈ d, w.word x = true
  nodes : NodesOk w ns

theorem exec_of_value (c : Char) (n : Nat) (part : Re) (D : Str) (ns : List (Str × Str)) (hn : ns.length = n) (hh : HeadOk w c D ns) (gap pre v P blanks comment e : Str)
    (hg : gap ≠ []) (hgs : ∀ x ∈ gap, isSpace x = true) (hP : ParamsOk w P) (he : EndOk blanks comment e)
    (hpart : ∀ (s : St), s.rest = gap ++ (pre ++ (v ++ (P ++ (blanks ++ comment ++ e)))) → Fresh s → ∃ t l, go part (go (paramRe w) some) s = go (paramRe w) some t ∧
      t.rest = P ++ (blanks ++ comment ++ e) ∧ t.pos = s.pos + (gap ++ pre ++ v).length ∧ t.caps = (.value, s.pos + (gap ++ pre).length, v) :: (l ++ s.caps) ∧ inner l) :
    ∃ x b rest, exec (.seq (prefixAndNodes w c n n) (.seq part (paramRe w))) (D ++ nodesText ns ++ gap ++ pre ++ v ++ P ++ blanks ++ comment ++ e) = some x ∧
      Found x D (nodesText ns) gap pre v P b ∧ (∀ c ∈ b, isSpace c = true) ∧ (P = [] → b = []) ∧ blanks ++ comment ++ e = b ++ rest := by
  obtain ⟨a, mark, d, rfl, ha, hm, hd, hw⟩ := hh.designator
  subst hn
  let s1 : St := ⟨(a :: (mark ++ d) ++ nodesText ns).length, gap ++ (pre ++ (v ++ (P ++ (blanks ++ comment ++ e)))),
      [(.nodes, (a :: (mark ++ d)).length, nodesText ns), (.designator, 0, a :: (mark ++ d))]⟩
  obtain ⟨t, l, h1, h2, h3, h4, h5⟩ := hpart s1 rfl ⟨rfl, rfl, rfl, rfl⟩
  obtain ⟨x, b, rest, g1, g2, g3, g4, g5, g6⟩ := go_params w hP he t h2
  refine ⟨x, b, rest, ?_, ?_, g3, g4, g5⟩
  · unfold exec
    rw [go_seq]
    refine go_prefix w c _ _ a mark d ns (gap ++ (pre ++ (v ++ (P ++ (blanks ++ comment ++ e))))) (by simp) ha hm hd hw hh.nodes ?_ x ?_
    · intro y hy
      obtain ⟨z, g, rfl⟩ := List.exists_cons_of_ne_nil hg
      simp at hy; subst hy; exact hgs z (by simp)
    · rw [go_seq]
      exact h1.trans g1
  · refine found_of_caps x _ _ gap pre v P b l h5 ?_ ?_
    · have : 0 < t.pos := by rw [h3]; simp [s1]
      omega
    · rw [g2, h3, h4]
      simp [s1, Nat.add_assoc]
      exact ⟨by omega, by omega⟩

/-- The resistors, capacitors and inductors. -/
theorem exec_passive (c : Char) (suffix : Re) (hc : (c, suffix) ∈ [('R', suffixR), ('C', suffixC), ('L', suffixL)]) (D : Str) (ns : List (Str × Str)) (hn : ns.length = 2) (hh : HeadOk w c D ns)
    (gap pre v P blanks comment e : Str) (hg : gap ≠ []) (hgs : ∀ x ∈ gap, isSpace x = true) (hpre : PreOk c pre) (hP : ParamsOk w P) (he : EndOk blanks comment e)
    (hv : ValueOk (P ++ (blanks ++ comment ++ e)) v) :
    ∃ x b rest, exec (.seq (prefixAndNodes w c 2 2) (.seq (valueRe c suffix) (paramRe w))) (D ++ nodesText ns ++ gap ++ pre ++ v ++ P ++ blanks ++ comment ++ e) = some x ∧
      Found x D (nodesText ns) gap pre v P b ∧ (∀ c ∈ b, isSpace c = true) ∧ (P = [] → b = []) ∧ blanks ++ comment ++ e = b ++ rest := by
  refine exec_of_value w c 2 _ D ns hn hh gap pre v P blanks comment e hg hgs hP he ?_
  intro s hs hf
  have hfacts : AllIn Bare suffix ∧ names suffix = [] ∧ c.isAlpha = true ∧ c.toUpper = c := by
    obtain ⟨b1, b2, b3⟩ := bare_suffix
    simp only [List.mem_cons, Prod.mk.injEq, List.not_mem_nil, or_false] at hc
    rcases hc with ⟨rfl, rfl⟩ | ⟨rfl, rfl⟩ | ⟨rfl, rfl⟩
    · exact ⟨b1, rfl, by decide, by decide⟩
    · exact ⟨b2, rfl, by decide, by decide⟩
    · exact ⟨b3, rfl, by decide, by decide⟩
  obtain ⟨t, l, h1, _, h3, h4, h5, h6⟩ := go_value hfacts.1 hfacts.2.1 c hfacts.2.2.1 hfacts.2.2.2 (go (paramRe w) some) s gap pre v _ hs hg hgs hpre hv hf
    (rest_head w hP he) (rest_second w hP he) (fun t c r ht h1 h2 h3 => params_none w t c r ht h1 h2 h3)
    (fun t ht => by obtain ⟨x, _, _, hx, _⟩ := go_params w hP he t ht; rw [hx]; rfl)
  exact ⟨t, l, h1, h3, h4, h5, h6⟩

/-- The name of a model. -/
def modelChar (c : Char) : Bool := w.word c || c = '.' || c = '-' || c = '{' || c = '}'

theorem model_vis (c : Char) (h : modelChar w c = true) : isSpace c = false := by
  simp only [modelChar, Bool.or_eq_true, decide_eq_true_eq] at h
  rcases h with (((h | h) | h) | h) | h
  · exact (w.not c h).1
  all_goals (subst h; decide)

theorem go_model (k : St → Option St) (s : St) (gap v R : Str) (hs : s.rest = gap ++ (v ++ R)) (hg : gap ≠ []) (hgs : ∀ x ∈ gap, isSpace x = true)
    (hv : v ≠ []) (hvs : ∀ c ∈ v, modelChar w c = true) (hR : ∀ c, R.head? = some c → isSpace c = true) (hk : ∀ t : St, t.rest = R → (k t).isSome = true) :
    ∃ t, go (modelRe w) k s = k t ∧ t.rest = R ∧ t.pos = s.pos + (gap ++ v).length ∧ t.caps = (.value, s.pos + gap.length, v) :: s.caps := by
  let s1 : St := adv s gap (v ++ R)
  let t : St := St.close .value s1 (adv s1 v R)
  obtain ⟨x, hx⟩ := Option.isSome_iff_exists.1 (hk t rfl)
  refine ⟨t, ?_, rfl, by simp [t, s1, adv, St.close]; omega, close_text .value (s := s1) (t := adv s1 v R) (a := v) ⟨rfl, rfl⟩⟩
  rw [hx]
  unfold modelRe
  refine go_plus _ _ s gap (v ++ R) hg hs hgs ?_ x ?_
  · intro c hc
    obtain ⟨y, v', rfl⟩ := List.exists_cons_of_ne_nil hv
    simp at hc; subst hc
    exact model_vis w y (hvs y (by simp))
  · rw [go_grp]
    refine go_plus _ _ s1 v R hv rfl hvs ?_ x hx
    intro c hc
    by_contra h
    have := model_vis w c ((Bool.not_eq_false _).mp h)
    rw [hR c hc] at this; simp at this

/-- The components with a model and a fixed number of nodes. -/
theorem exec_model (c : Char) (n : Nat) (D : Str) (ns : List (Str × Str)) (hn : ns.length = n) (hh : HeadOk w c D ns)
    (gap v P blanks comment e : Str) (hg : gap ≠ []) (hgs : ∀ x ∈ gap, isSpace x = true) (hP : ParamsOk w P) (he : EndOk blanks comment e)
    (hv : v ≠ []) (hvs : ∀ c ∈ v, modelChar w c = true) :
    ∃ x b rest, exec (.seq (prefixAndNodes w c n n) (.seq (modelRe w) (paramRe w))) (D ++ nodesText ns ++ gap ++ [] ++ v ++ P ++ blanks ++ comment ++ e) = some x ∧
      Found x D (nodesText ns) gap [] v P b ∧ (∀ c ∈ b, isSpace c = true) ∧ (P = [] → b = []) ∧ blanks ++ comment ++ e = b ++ rest := by
  refine exec_of_value w c n _ D ns hn hh gap [] v P blanks comment e hg hgs hP he ?_
  intro s hs hf
  obtain ⟨t, h1, h3, h4, h5⟩ := go_model w (go (paramRe w) some) s gap v _ (by simpa using hs) hg hgs hv hvs (rest_head w hP he)
    (fun t ht => by obtain ⟨x, _, _, hx, _⟩ := go_params w hP he t ht; rw [hx]; rfl)
  exact ⟨t, [], h1, h3, by simpa using h4, by simpa using h5, by intro c hc; simp at hc⟩

/-! ### Components with a variable number of nodes -/

/-- Nothing that the expression allows can follow. -/
def Stuck (r : Str) : Prop :=
  (∃ c r', r = c :: r' ∧ isSpace c = false ∧ c ≠ ';' ∧ c ≠ '\\') ∨ ∃ b r', r = b ++ '=' :: r' ∧ b ≠ [] ∧ ∀ x ∈ b, isSpace x = true

theorem blank_run {p : Char → Bool} (hp : ∀ c, p c = true → isSpace c = false) {s t u : St} (h1 : Run (plus sp) s t) (h2 : Run (plus (.cls p)) t u)
    (b : Str) (y : Char) (r : Str) (hs : s.rest = b ++ y :: r) (hb : ∀ x ∈ b, isSpace x = true) (hy : isSpace y = false) :
    b ≠ [] ∧ p y = true ∧ ∃ n, n ≠ [] ∧ (∀ c ∈ n, p c = true) ∧ y :: r = n ++ u.rest := by
  obtain ⟨a1, n1, b1, p1, _⟩ := run_plus_cls h1
  obtain ⟨a2, n2, b2, p2, _⟩ := run_plus_cls h2
  obtain ⟨z, a2', rfl⟩ := List.exists_cons_of_ne_nil n2
  have hz := p2 z (by simp)
  have e : b ++ y :: r = a1 ++ (z :: a2' ++ u.rest) := by rw [← hs, b1.text, b2.text]
  have same : b = a1 := by
    rcases split_suffix e with ⟨d, e1, e2⟩ | ⟨d, hd, e1, e2⟩
    · cases d with
      | nil => simpa using e1
      | cons q d =>
        simp at e2
        have h3 := hb q (by rw [e1]; simp)
        rw [← e2.1, hp z hz] at h3; simp at h3
    · obtain ⟨q, d', rfl⟩ := List.exists_cons_of_ne_nil hd
      simp at e2
      have h3 := p1 q (by rw [e1]; simp)
      rw [← e2.1, hy] at h3; simp at h3
  rw [same, List.append_cancel_left_eq] at e
  have hyz : y = z := by simp at e; exact e.1
  refine ⟨by rw [same]; exact n1, by rw [hyz]; exact hz, z :: a2', by simp, p2, e⟩

theorem stuck_word {p : Char → Bool} (hp : ∀ c, p c = true → isSpace c = false) (he : p '=' = false) {s t u : St} (h1 : Run (plus sp) s t) (h2 : Run (plus (.cls p)) t u)
    (hs : Stuck s.rest) : False := by
  rcases hs with ⟨c, r, e, hc, _⟩ | ⟨b, r, e, hb, hbs⟩
  · exact (blank_run hp h1 h2 [] c r e (by simp) hc).1 rfl
  · have := (blank_run hp h1 h2 b '=' r e hbs (by decide)).2.1
    rw [he] at this; simp at this

theorem stuck_params {s : St} (hs : Stuck s.rest) : ∀ t, ¬ Run (paramRe w) s t := by
  intro t ht
  have no_item : ∀ u, ¬ Run (paramItem w) s u := by
    intro u hu
    unfold paramItem at hu
    cases hu with
    | seq h1 h2 =>
      cases h2 with
      | seq h3 _ =>
        exact stuck_word (p := w.word) (fun c hc => (w.not c hc).1) (by
          by_contra h
          have := (w.not '=' ((Bool.not_eq_false _).mp h)).2
          simp at this) h1 h3 hs
  have no_comment : ∀ (s' : St) (u : St), s'.rest = s.rest → ¬ Run commentRe s' u := by
    intro s' u hr hu
    rcases hs with ⟨c, r, e, hc, h1, h2⟩ | ⟨b, r, e, hb, hbs⟩
    · rcases comment_head hu [] c r (by rw [hr, e]; rfl) (by simp) hc with h | h
      · exact h1 h
      · exact h2 h
    · rcases comment_head hu b '=' r (by rw [hr, e]) hbs (by decide) with h | h
      · revert h; decide
      · revert h; decide
  unfold paramRe at ht
  cases ht with
  | seq h1 h2 =>
    cases h1 with
    | left h1 =>
      cases h1 with
      | grp h1 =>
        cases h1 with
        | stop => exact no_comment _ _ (by rfl) h2
        | once h _ _ => exact no_item _ h
    | right h1 => cases h1; exact no_comment _ _ rfl h2

/-- The first parameter: blanks, a name, perhaps blanks, and an equal sign. -/
def Begins (P : Str) : Prop := P = [] ∨ ∃ g n b r, P = g ++ n ++ b ++ '=' :: r ∧ g ≠ [] ∧ (∀ x ∈ g, isSpace x = true) ∧ n ≠ [] ∧ (∀ x ∈ n, w.word x = true) ∧ ∀ x ∈ b, isSpace x = true

theorem eq_not_word : w.word '=' = false := by
  by_contra h
  have := (w.not '=' ((Bool.not_eq_false _).mp h)).2
  simp at this

theorem semi_not_word : w.word ';' = false := by
  by_contra h
  have := (w.not ';' ((Bool.not_eq_false _).mp h)).2
  simp at this

/-- After the model nothing can be taken for a node or for the model. -/
theorem after_stuck {p : Char → Bool} (hp : ∀ c, p c = true → isSpace c = false) (he : p '=' = false) (hsemi : p ';' = false) {s t u : St}
    (h1 : Run (plus sp) s t) (h2 : Run (plus (.cls p)) t u) {P blanks comment e : Str} (hP : Begins w P) (hE : EndOk blanks comment e)
    (hs : s.rest = P ++ (blanks ++ comment ++ e)) : Stuck u.rest := by
  rcases hP with rfl | ⟨g, n, b, r, rfl, hg, hgs, hn, hns, hb⟩
  · -- only blanks and a comment are left
    exfalso
    rw [List.nil_append] at hs
    obtain ⟨a1, n1, b1, p1, _⟩ := run_plus_cls h1
    obtain ⟨a2, n2, b2, p2, _⟩ := run_plus_cls h2
    obtain ⟨z, a2', rfl⟩ := List.exists_cons_of_ne_nil n2
    have hz := p2 z (by simp)
    have hzm : z ∈ s.rest := by rw [b1.text, b2.text]; simp
    rcases hE.comment with rfl | ⟨hbl, cm, rfl, _⟩
    · rw [hs] at hzm
      have : isSpace z = true := by
        simp only [List.append_nil, List.mem_append] at hzm
        rcases hzm with m | m
        · exact hE.blank z m
        · exact hE.last z m
      rw [hp z hz] at this; simp at this
    · have := blank_run hp h1 h2 blanks ';' (cm ++ e) (by rw [hs]; simp) hE.blank (by decide)
      rw [hsemi] at this; simp at this
  · obtain ⟨y, n', rfl⟩ := List.exists_cons_of_ne_nil hn
    obtain ⟨_, _, m, hm, hmp, e2⟩ := blank_run hp h1 h2 g y (n' ++ b ++ '=' :: r ++ (blanks ++ comment ++ e)) (by rw [hs]; simp) hgs (w.not y (hns y (by simp))).1
    have e3 : m ++ u.rest = (y :: n') ++ (b ++ '=' :: (r ++ (blanks ++ comment ++ e))) := by rw [← e2]; simp
    rcases split_suffix e3 with ⟨d, f1, f2⟩ | ⟨d, hd, f1, f2⟩
    · -- the whole name
      have hd : d = [] := by
        cases d with
        | nil => rfl
        | cons q d =>
          exfalso
          have hq := hmp q (by rw [f1]; simp)
          cases b with
          | nil =>
            simp at f2
            rw [← f2.1, he] at hq; simp at hq
          | cons z b =>
            simp at f2
            have := hb z (by simp)
            rw [f2.1, hp q hq] at this; simp at this
      rw [hd, List.nil_append] at f2
      by_cases hbe : b = []
      · left
        rw [hbe] at f2
        exact ⟨'=', _, f2.symm, by decide, by decide, by decide⟩
      · right
        exact ⟨b, _, f2.symm, hbe, hb⟩
    · left
      obtain ⟨q, d', rfl⟩ := List.exists_cons_of_ne_nil hd
      have hq := hns q (by rw [f1]; simp)
      refine ⟨q, _, f2, (w.not q hq).1, ?_, ?_⟩
      · rintro rfl
        rw [semi_not_word] at hq; simp at hq
      · rintro rfl
        have := (w.not _ hq).2; simp at this

theorem node_eq : nodeChar w '=' = false ∧ nodeChar w ';' = false := by
  refine ⟨?_, ?_⟩
  · simp only [nodeChar, eq_not_word, Bool.false_or]; decide
  · simp only [nodeChar, semi_not_word, Bool.false_or]; decide

theorem model_eq : modelChar w '=' = false ∧ modelChar w ';' = false := by
  refine ⟨?_, ?_⟩
  · simp only [modelChar, eq_not_word, Bool.false_or]; decide
  · simp only [modelChar, semi_not_word, Bool.false_or]; decide

theorem model_char_ok (c : Char) (h : modelChar w c = true) : c ≠ ';' ∧ c ≠ '\\' := by
  refine ⟨?_, ?_⟩
  · rintro rfl; rw [(model_eq w).2] at h; simp at h
  · rintro rfl
    simp only [modelChar, Bool.or_eq_true, decide_eq_true_eq] at h
    rcases h with (((h | h) | h) | h) | h
    · have := (w.not _ h).2; simp at this
    all_goals simp at h

/-- With more nodes than there are, nothing matches. -/
theorem no_more_nodes {Q : Re} (hQ : ∀ s : St, Stuck s.rest → ∀ t, ¬ Run Q s t) (k : Nat) {s : St} {gap v P blanks comment e : Str} (hs : s.rest = gap ++ (v ++ (P ++ (blanks ++ comment ++ e))))
    (hgs : ∀ x ∈ gap, isSpace x = true) (hv : v ≠ []) (hvs : ∀ c ∈ v, modelChar w c = true) (hP : Begins w P) (hE : EndOk blanks comment e)
    (t : St) {t' : St} (u x : St) (h1 : Run (.seq (nodeRe w) (upTo (nodeRe w) k)) s t) (ht : t'.rest = t.rest) (h2 : Run (modelRe w) t' u) (h3 : Run Q u x) : False := by
  -- after some nodes from the parameters
  have nodes_from : ∀ (k : Nat) (s t : St), (Stuck s.rest ∨ s.rest = P ++ (blanks ++ comment ++ e)) → Run (upTo (nodeRe w) k) s t →
      Stuck t.rest ∨ t.rest = P ++ (blanks ++ comment ++ e) := by
    intro k
    induction k with
    | zero => intro s t h hr; cases hr; exact h
    | succ k ih =>
      intro s t h hr
      cases hr with
      | right hr => cases hr; exact h
      | left hr =>
        cases hr with
        | seq r1 r2 =>
          refine ih _ _ ?_ r2
          cases r1 with
          | seq r3 r4 =>
            left
            rcases h with h | h
            · exact (stuck_word (node_not_space w) (node_eq w).1 r3 r4 h).elim
            · exact after_stuck w (node_not_space w) (node_eq w).1 (node_eq w).2 r3 r4 hP hE h
  have model_from : ∀ (s t u : St), (Stuck s.rest ∨ s.rest = P ++ (blanks ++ comment ++ e)) → Run (plus sp) s t → Run (plus (.cls (modelChar w))) t u → Stuck u.rest := by
    intro s t u h r1 r2
    rcases h with h | h
    · exact (stuck_word (model_vis w) (model_eq w).1 r1 r2 h).elim
    · exact after_stuck w (model_vis w) (model_eq w).1 (model_eq w).2 r1 r2 hP hE h
  cases h1 with
  | @seq _ _ _ s1 _ r1 r2 =>
    have hs1 : Stuck s1.rest ∨ s1.rest = P ++ (blanks ++ comment ++ e) := by
      cases r1 with
      | seq r3 r4 =>
        obtain ⟨y, v', rfl⟩ := List.exists_cons_of_ne_nil hv
        obtain ⟨_, _, m, hm, hmp, e2⟩ := blank_run (node_not_space w) r3 r4 gap y (v' ++ (P ++ (blanks ++ comment ++ e))) (by rw [hs]; simp) hgs (model_vis w y (hvs y (by simp)))
        have e3 : m ++ s1.rest = (y :: v') ++ (P ++ (blanks ++ comment ++ e)) := by rw [← e2]; simp
        rcases split_suffix e3 with ⟨d, f1, f2⟩ | ⟨d, hd, f1, f2⟩
        · cases d with
          | nil => right; simpa using f2.symm
          | cons q d =>
            exfalso
            have hq := hmp q (by rw [f1]; simp)
            have hq2 : isSpace q = true := by
              rcases hP with rfl | ⟨g, n, b, r, rfl, hg, hgs, _⟩
              · exact end_head hE q (by rw [List.nil_append] at f2; rw [f2]; rfl)
              · obtain ⟨z, g', rfl⟩ := List.exists_cons_of_ne_nil hg
                simp at f2
                rw [← f2.1]; exact hgs z (by simp)
            rw [node_not_space w q hq] at hq2; simp at hq2
        · left
          left
          obtain ⟨q, d', rfl⟩ := List.exists_cons_of_ne_nil hd
          have hq := hvs q (by rw [f1]; simp)
          exact ⟨q, _, f2, model_vis w q hq, model_char_ok w q hq⟩
    have hs2 := nodes_from _ _ _ hs1 r2
    rw [← ht] at hs2
    unfold modelRe at h2
    cases h2 with
    | seq r5 r6 =>
      cases r6 with
      | @grp _ _ _ u2 r6 =>
        have := model_from _ _ _ hs2 r5 r6
        exact hQ (St.close .value _ u2) this _ h3

theorem go_upTo (ns : List (Str × Str)) (h : NodesOk w ns) : ∀ (M : Nat) (k : St → Option St) (s : St) (r : Str), ns.length ≤ M → s.rest = nodesText ns ++ r →
    (∀ c, r.head? = some c → isSpace c = true) → (∀ j, go (.seq (nodeRe w) (upTo (nodeRe w) j)) k (adv s (nodesText ns) r) = none) →
    ∀ x, k (adv s (nodesText ns) r) = some x → go (upTo (nodeRe w) M) k s = some x := by
  induction ns with
  | nil =>
    intro M k s r hM hs hr hno x hk
    have e : adv s (nodesText []) r = s := by rw [show r = s.rest by simpa [nodesText] using hs.symm]; exact adv_nil s
    rw [e] at hk hno
    cases M with
    | zero => exact hk
    | succ M =>
      show go (opt _) k s = some x
      rw [go_opt_skip _ _ _ (hno M)]
      exact hk
  | cons n ns ih =>
    intro M k s r hM hs hr hno x hk
    cases M with
    | zero => simp at hM
    | succ M =>
      obtain ⟨⟨h1, h2⟩, h3, h4⟩ := h n (by simp)
      have hns : NodesOk w ns := fun y hy => h y (by simp [hy])
      have hgo : go (.seq (nodeRe w) (upTo (nodeRe w) M)) k s = some x := by
        rw [go_seq]
        refine go_node w _ s n.1 n.2 (nodesText ns ++ r) (by rw [hs]; simp [nodesText]) h1 h2 h3 h4 ?_ x ?_
        · intro c hc
          exact space_not_node w c (nodes_head w ns hns r hr c hc)
        · refine ih hns M k _ r (by simpa using hM) rfl hr ?_ x ?_
          · intro j
            rw [adv_adv]
            simpa [nodesText] using hno j
          · rw [adv_adv]
            simpa [nodesText] using hk
      show (go _ k s).or _ = some x
      rw [hgo]; rfl

/-- The components with a model and a variable number of nodes. -/
theorem exec_models (c : Char) (n m : Nat) (D : Str) (ns : List (Str × Str)) (hn : n ≤ ns.length) (hm : ns.length ≤ m) (hh : HeadOk w c D ns)
    (gap v P blanks comment e : Str) (hg : gap ≠ []) (hgs : ∀ x ∈ gap, isSpace x = true) (hP : ParamsOk w P) (hB : Begins w P) (he : EndOk blanks comment e)
    (hv : v ≠ []) (hvs : ∀ c ∈ v, modelChar w c = true) :
    ∃ x b rest, exec (.seq (prefixAndNodes w c n m) (.seq (modelRe w) (paramRe w))) (D ++ nodesText ns ++ gap ++ [] ++ v ++ P ++ blanks ++ comment ++ e) = some x ∧
      Found x D (nodesText ns) gap [] v P b ∧ (∀ c ∈ b, isSpace c = true) ∧ (P = [] → b = []) ∧ blanks ++ comment ++ e = b ++ rest := by
  obtain ⟨a, mark, d, rfl, ha, hmk, hd, hw⟩ := hh.designator
  have R0 : ∀ c, (gap ++ (v ++ (P ++ (blanks ++ comment ++ e)))).head? = some c → isSpace c = true := by
    intro y hy
    obtain ⟨z, g, rfl⟩ := List.exists_cons_of_ne_nil hg
    simp at hy; subst hy; exact hgs z (by simp)
  let s1 : St := ⟨(a :: (mark ++ d) ++ nodesText ns).length, gap ++ (v ++ (P ++ (blanks ++ comment ++ e))),
      [(.nodes, (a :: (mark ++ d)).length, nodesText ns), (.designator, 0, a :: (mark ++ d))]⟩
  obtain ⟨t, h1, h2, h3, h4⟩ := go_model w (go (paramRe w) some) s1 gap v _ rfl hg hgs hv hvs (rest_head w hP he)
    (fun t ht => by obtain ⟨x, _, _, hx, _⟩ := go_params w hP he t ht; rw [hx]; rfl)
  obtain ⟨x, b, rest, g1, g2, g3, g4, g5, g6⟩ := go_params w hP he t h2
  refine ⟨x, b, rest, ?_, ?_, g3, g4, g5⟩
  · unfold exec prefixAndNodes
    rw [go_seq, go_seq]
    refine go_designator w c _ _ a mark d (nodesText ns ++ (gap ++ (v ++ (P ++ (blanks ++ comment ++ e))))) (by simp) ha hmk hd hw ?_ x ?_
    · intro y hy
      have := nodes_head w ns hh.nodes _ R0 y hy
      by_contra hc
      have e := (w.not y ((Bool.not_eq_false _).mp hc)).1
      rw [e] at this; simp at this
    · rw [go_grp]
      unfold range
      rw [go_seq]
      -- the first n nodes, then as many as there are
      have hsplit : nodesText ns = nodesText (ns.take n) ++ nodesText (ns.drop n) := by
        unfold nodesText
        rw [← List.flatMap_append, List.take_append_drop]
      have htake : (ns.take n).length = n := by simp [hn]
      have hnk1 : NodesOk w (ns.take n) := fun y hy => hh.nodes y (List.mem_of_mem_take hy)
      have hnk2 : NodesOk w (ns.drop n) := fun y hy => hh.nodes y (List.mem_of_mem_drop hy)
      rw [← htake]
      refine go_times w (ns.take n) hnk1 _ _ (nodesText (ns.drop n) ++ (gap ++ (v ++ (P ++ (blanks ++ comment ++ e))))) ?_ (nodes_head w _ hnk2 _ R0) x ?_
      · simp only [adv]; rw [hsplit]; simp
      · rw [htake]
        refine go_upTo w (ns.drop n) hnk2 (m - n) _ _ (gap ++ (v ++ (P ++ (blanks ++ comment ++ e)))) (by simp; omega) rfl R0 ?_ x ?_
        · intro j
          apply go_none
          intro y hy
          apply go_none
          intro z hz
          exfalso
          cases hz with
          | seq hz hq => exact no_more_nodes w (fun _ hs => stuck_params w hs) j (t' := St.close .nodes _ y) rfl hgs hv hvs hB he y _ _ hy rfl hz hq
        · rw [adv_adv, ← hsplit]
          have e1 : St.close .nodes (adv ⟨0, a :: (mark ++ d) ++ nodesText ns ++ gap ++ [] ++ v ++ P ++ blanks ++ comment ++ e, []⟩ (a :: (mark ++ d)) (nodesText ns ++ (gap ++ (v ++ (P ++ (blanks ++ comment ++ e))))) |> fun s => { s with caps := [(.designator, 0, a :: (mark ++ d))] })
              (adv ⟨0 + (a :: (mark ++ d)).length, nodesText ns ++ (gap ++ (v ++ (P ++ (blanks ++ comment ++ e)))), [(.designator, 0, a :: (mark ++ d))]⟩ (nodesText ns) (gap ++ (v ++ (P ++ (blanks ++ comment ++ e))))) = s1 := by
            simp [St.close, adv, s1]; omega
          refine Eq.trans ?_ (h1.trans g1)
          exact congrArg _ e1
  · refine found_of_caps x _ _ gap [] v P b [] (by intro c hc; simp at hc) ?_ ?_
    · have : 0 < t.pos := by rw [h3]; simp [s1]
      omega
    · rw [g2, h3, h4]
      simp [s1, Nat.add_assoc]
      exact ⟨by omega, by omega⟩

/-! ### Sources: the value is the rest of the line before the parameters -/

/-- A parameter with its equal sign. -/
def strictItem : Re := .seq (plus sp) (.seq (plus (wordRe w)) (.seq (.star sp) (.seq (lit '=') (.seq (.star sp) (plus (.cls (paramChar w)))))))

theorem strict_sub (s t : St) (h : Run (strictItem w) s t) : Run (paramItem w) s t := by
  unfold strictItem at h
  cases h with
  | seq h1 h2 => cases h2 with | seq h3 h4 => cases h4 with | seq h5 h6 => exact .seq h1 (.seq h3 (.seq h5 (.left h6)))

theorem go_lazy (p : Char → Bool) (k : St → Option St) (a r : Str) : ∀ (s : St), s.rest = a ++ r → (∀ c ∈ a, p c = true) →
    (∀ u q : Str, a = u ++ q → q ≠ [] → k (adv s u (q ++ r)) = none) → ∀ x, k (adv s a r) = some x → go (.lazy (.cls p)) k s = some x := by
  have key : ∀ (a : Str) (n : Nat) (s : St), a.length ≤ n → s.rest = a ++ r → (∀ c ∈ a, p c = true) →
      (∀ u q : Str, a = u ++ q → q ≠ [] → k (adv s u (q ++ r)) = none) → ∀ x, k (adv s a r) = some x → less (go (.cls p)) k n s = some x := by
    intro a
    induction a with
    | nil =>
      intro n s _ hs _ _ x hk
      rw [show r = s.rest by simpa using hs.symm, adv_nil] at hk
      cases n with
      | zero => exact hk
      | succ n => simp only [less, hk, Option.some_or]
    | cons c a ih =>
      intro n s hn hs hp hno x hk
      cases n with
      | zero => simp at hn
      | succ n =>
        have h0 : k s = none := by
          have := hno [] (c :: a) rfl (by simp)
          rw [← hs, adv_nil] at this; exact this
        simp only [less, h0, Option.none_or]
        rw [go_cls p _ s c (a ++ r) hs (hp c (by simp)), if_pos (by rw [hs]; simp [adv])]
        refine ih n _ (by simpa using hn) rfl (fun d hd => hp d (by simp [hd])) ?_ x ?_
        · intro u q e hq
          rw [adv_adv]
          exact hno ([c] ++ u) q (by rw [e]; simp) hq
        · rw [adv_adv]; exact hk
  intro s hs hp hno x hk
  exact key a _ s (by rw [hs]; simp) hs hp hno x hk

theorem three_blocks {a1 a2 a3 L1 g L2 : Str} {x y : Char} (h : a1 ++ (a2 ++ a3) = (L1 ++ [x]) ++ (g ++ y :: L2)) (h1 : ∀ c ∈ a1, isSpace c = true)
    (h2 : ∀ c ∈ a2, isSpace c = false) (h3 : ∀ c ∈ a3, isSpace c = true) (hx : isSpace x = false) (hy : isSpace y = false) (hg : g ≠ []) (hgs : ∀ c ∈ g, isSpace c = true) : False := by
  rcases split_suffix h with ⟨d, e1, e2⟩ | ⟨d, hd, e1, e2⟩
  · have := h1 x (by rw [e1]; simp)
    rw [hx] at this; simp at this
  · have e2 : a2 ++ a3 = d ++ (g ++ y :: L2) := e2
    rcases split_suffix e2 with ⟨d', f1, f2⟩ | ⟨d', hd', f1, f2⟩
    · cases d' with
      | nil =>
        have := h3 y (by rw [show a3 = g ++ y :: L2 by simpa using f2.symm]; simp)
        rw [hy] at this; simp at this
      | cons z d' =>
        obtain ⟨q, g', rfl⟩ := List.exists_cons_of_ne_nil hg
        simp at f2
        have h4 := h2 z (by rw [f1]; simp)
        rw [← f2.1, hgs q (by simp)] at h4; simp at h4
    · have := h3 y (by rw [f2]; simp)
      rw [hy] at this; simp at this

/-- A value of a source. -/
structure SourceOk (v : Str) : Prop where
  ne : v ≠ []
  head : ∀ c, v.head? = some c → isSpace c = false
  last : ∀ c, v.getLast? = some c → isSpace c = false
  chars : ∀ c ∈ v, c ∉ ['=', ';', '\\', '\n']

theorem source_none {v u q P blanks comment e : Str} (hv : SourceOk v) (huq : v = u ++ q) (hq : q ≠ []) (hB : Begins w P) (hE : EndOk blanks comment e) (s : St)
    (hs : s.rest = q ++ (P ++ (blanks ++ comment ++ e))) : go (paramStrictRe w) some s = none := by
  apply go_none
  intro t ht
  exfalso
  obtain ⟨L1, x, hLx⟩ : ∃ L1 x, q = L1 ++ [x] := ⟨q.dropLast, q.getLast hq, (List.dropLast_append_getLast hq).symm⟩
  have hx : isSpace x = false := hv.last x (by rw [huq, hLx, ← List.append_assoc, List.getLast?_append]; rfl)
  have hqc : ∀ c ∈ q, c ∉ ['=', ';', '\\', '\n'] := fun c hc => hv.chars c (by rw [huq]; simp [hc])
  have ht : Run (.seq (.grp .params (.star (strictItem w))) commentRe) s t := ht
  cases ht with
  | seq r1 r2 =>
    cases r1 with
    | @grp _ _ _ s1 r1 =>
      cases r1 with
      | stop =>
        obtain ⟨a, c, r, f1, f2, f3⟩ := first_visible q ⟨x, by rw [hLx]; simp, hx⟩
        have hc := hqc c (by rw [f1]; simp)
        simp at hc
        rcases comment_head r2 a c (r ++ (P ++ (blanks ++ comment ++ e))) (by show s.rest = _; rw [hs, f1]; simp) f2 f3 with h | h
        · exact hc.2.1 h
        · exact hc.2.2.1 h
      | once r1 _ _ =>
        unfold strictItem at r1
        cases r1 with
        | seq r3 r4 =>
          cases r4 with
          | seq r5 r6 =>
            cases r6 with
            | seq r7 r8 =>
              cases r8 with
              | seq r9 _ =>
                obtain ⟨a1, _, b1, p1, _⟩ := run_plus_cls r3
                obtain ⟨a2, _, b2, p2, _⟩ := run_plus_cls r5
                obtain ⟨a3, b3, p3, _⟩ := run_star_cls r7
                cases r9 with
                | @cls _ _ d z hz hd =>
                  simp at hd; subst hd
                  have htext : s.rest = (a1 ++ (a2 ++ a3)) ++ '=' :: z := by rw [b1.text, b2.text, b3.text, hz]; simp
                  rw [hs] at htext
                  have p2' : ∀ c ∈ a2, isSpace c = false := fun c hc => (w.not c (p2 c hc)).1
                  have noeq : ∀ c ∈ a1 ++ (a2 ++ a3), c ≠ '=' ∧ c ≠ ';' := by
                    intro c hc
                    simp only [List.mem_append] at hc
                    have bl : isSpace c = true → c ≠ '=' ∧ c ≠ ';' := by
                      intro h; constructor <;> (rintro rfl; revert h; decide)
                    rcases hc with m | m | m
                    · exact bl (p1 c m)
                    · have := p2 c m
                      constructor
                      · rintro rfl; rw [eq_not_word] at this; simp at this
                      · rintro rfl; rw [semi_not_word] at this; simp at this
                    · exact bl (p3 c m)
                  -- the equal sign is that of the first parameter
                  rcases hB with rfl | ⟨g, n, b, r, rfl, hg, hgs, hn, hns, hb⟩
                  · rw [List.nil_append] at htext
                    rcases hE.comment with rfl | ⟨hbl, cm, rfl, _⟩
                    · have : '=' ∈ q ++ (blanks ++ [] ++ e) := by rw [htext]; simp
                      simp only [List.mem_append, List.append_nil] at this
                      rcases this with m | m | m
                      · exact (by simpa using hqc _ m : False)
                      · have := hE.blank _ m; revert this; decide
                      · have := hE.last _ m; revert this; decide
                    · have e3 : (a1 ++ (a2 ++ a3)) ++ '=' :: z = (q ++ blanks) ++ (';' :: cm ++ e) := by rw [← htext]; simp
                      rcases split_suffix e3 with ⟨d, f1, f2⟩ | ⟨d, hd, f1, f2⟩
                      · cases d with
                        | nil => simp at f2
                        | cons y d => simp at f2; exact (noeq y (by rw [f1]; simp)).2 f2.1.symm
                      · obtain ⟨y, d', rfl⟩ := List.exists_cons_of_ne_nil hd
                        simp at f2
                        have : '=' ∈ q ++ blanks := by rw [f1, f2.1]; simp
                        rcases List.mem_append.1 this with m | m
                        · exact (by simpa using hqc _ m : False)
                        · have := hE.blank _ m; revert this; decide
                  · have e3 : (a1 ++ (a2 ++ a3)) ++ '=' :: z = (q ++ g ++ n ++ b) ++ ('=' :: (r ++ (blanks ++ comment ++ e))) := by rw [← htext]; simp
                    have hno2 : ∀ c ∈ q ++ g ++ n ++ b, c ≠ '=' := by
                      intro c hc
                      simp only [List.mem_append] at hc
                      rcases hc with ((m | m) | m) | m
                      · have := hqc c m; simp at this; exact this.1
                      · have := hgs c m; rintro rfl; revert this; decide
                      · rintro rfl
                        have := hns _ m; rw [eq_not_word] at this; simp at this
                      · have := hb c m; rintro rfl; revert this; decide
                    have same : a1 ++ (a2 ++ a3) = q ++ g ++ n ++ b := by
                      rcases split_suffix e3 with ⟨d, f1, f2⟩ | ⟨d, hd, f1, f2⟩
                      · cases d with
                        | nil => simpa using f1
                        | cons y d => simp at f2; exact absurd f2.1.symm (noeq y (by rw [f1]; simp)).1
                      · obtain ⟨y, d', rfl⟩ := List.exists_cons_of_ne_nil hd
                        simp at f2
                        exact absurd f2.1.symm (hno2 y (by rw [f1]; simp))
                    obtain ⟨y, n', rfl⟩ := List.exists_cons_of_ne_nil hn
                    exact three_blocks (L1 := L1) (g := g) (L2 := n' ++ b) (x := x) (y := y) (by rw [same, hLx]; simp) p1 p2' p3 hx (w.not y (hns y (by simp))).1 hg hgs

/-- The parameters of a source. -/
structure StrictOk (P : Str) : Prop where
  run : ∀ (s : St) (r : Str), s.rest = P ++ r → Run (.star (strictItem w)) s (adv s P r)
  chars : ∀ c ∈ P, inParams w c
  ends : ∀ c, P.getLast? = some c → isSpace c = false
  begins : Begins w P

/-- The independent sources. -/
theorem exec_source (c : Char) (D : Str) (ns : List (Str × Str)) (hn : ns.length = 2) (hh : HeadOk w c D ns)
    (gap v P blanks comment e : Str) (hg : gap ≠ []) (hgs : ∀ x ∈ gap, isSpace x = true) (hP : StrictOk w P) (he : EndOk blanks comment e) (hv : SourceOk v) :
    ∃ x b rest, exec (.seq (prefixAndNodes w c 2 2) (.seq maybeValueRe (paramStrictRe w))) (D ++ nodesText ns ++ gap ++ [] ++ v ++ P ++ blanks ++ comment ++ e) = some x ∧
      Found x D (nodesText ns) gap [] v P b ∧ (∀ c ∈ b, isSpace c = true) ∧ (P = [] → b = []) ∧ blanks ++ comment ++ e = b ++ rest := by
  obtain ⟨a, mark, d, rfl, ha, hm, hd, hw⟩ := hh.designator
  let s1 : St := ⟨(a :: (mark ++ d) ++ nodesText ns).length, gap ++ (v ++ (P ++ (blanks ++ comment ++ e))),
      [(.nodes, (a :: (mark ++ d)).length, nodesText ns), (.designator, 0, a :: (mark ++ d))]⟩
  let s2 : St := adv s1 gap (v ++ (P ++ (blanks ++ comment ++ e)))
  let t : St := St.close .value s2 (adv s2 v (P ++ (blanks ++ comment ++ e)))
  have ht : t.caps = (.value, s2.pos, v) :: s1.caps := close_text .value (s := s2) (t := adv s2 v (P ++ (blanks ++ comment ++ e))) (a := v) ⟨rfl, rfl⟩
  obtain ⟨x, b, rest, g1, g2, g3, g4, g5, g6⟩ := params_core w (strict_sub w) hP.run hP.chars hP.ends he t rfl
  have htp : t.pos = s1.pos + gap.length + v.length := rfl
  refine ⟨x, b, rest, ?_, ?_, g3, g4, g5⟩
  · unfold exec
    rw [go_seq]
    have := go_prefix w c (go (.seq maybeValueRe (paramStrictRe w)) some) (a := a) (mark := mark) (d := d) (ns := ns) (r := gap ++ (v ++ (P ++ (blanks ++ comment ++ e)))) (text := a :: (mark ++ d) ++ nodesText ns ++ gap ++ [] ++ v ++ P ++ blanks ++ comment ++ e) (by simp) ha hm hd hw hh.nodes ?_ x ?_
    · rw [hn] at this; exact this
    · intro y hy
      obtain ⟨z, g, rfl⟩ := List.exists_cons_of_ne_nil hg
      simp at hy; subst hy; exact hgs z (by simp)
    · rw [go_seq]
      unfold maybeValueRe
      rw [go_seq]
      refine go_plus _ _ s1 gap (v ++ (P ++ (blanks ++ comment ++ e))) hg rfl hgs ?_ x ?_
      · intro y hy
        obtain ⟨z, v', e1⟩ := List.exists_cons_of_ne_nil hv.ne
        rw [e1] at hy; simp at hy; subst hy
        exact hv.head z (by rw [e1]; rfl)
      · rw [go_grp]
        refine go_lazy _ _ v (P ++ (blanks ++ comment ++ e)) s2 rfl ?_ ?_ x ?_
        · intro y hy
          have := hv.chars y hy
          simp at this
          simpa using this.2.2.2
        · intro u q huq hq
          exact source_none w hv huq hq hP.begins he _ rfl
        · exact g1
  · refine found_of_caps x _ _ gap [] v P b [] (by intro c hc; simp at hc) ?_ ?_
    · have : 0 < t.pos := by rw [htp]; simp [s1]
      omega
    · rw [g2, htp, ht]
      simp [s1, s2, adv, Nat.add_assoc]
      exact ⟨by omega, by omega⟩

end Lemmas.CompLine
