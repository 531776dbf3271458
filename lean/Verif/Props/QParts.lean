import Verif.Props.QSession
import Verif.Spec.QParts
/-
C109: sessions on QSPICE schematics in which the parameters of components are set (qsch_editor.py).
-/
namespace Props.QParts
open Model.PyStr
open Model.Qsch (Tag Attr Val fileText readFile)
open Model.QSession hiding Str step run Op
open Model.QParts hiding Str
open Model.QComp (tagText textHead newTag hit rewrite Key readTexts)
open Model.ParamRegex (QText Match splice)
open Spec.QschTree (Token WellFormed HasColon)
open Spec.QSession hiding Str others KeepsAll
open Spec.QParts hiding Str
open Spec.QComp (Shows)
open Spec.SchComp (Pairs names assignPair removePair)
open Spec.ParamLine (Item Name Value)
open Props.QSession (isTag_iff textTag_set textTag_text textTag_wf filter_mid CompEffect symbolOf_comp onComp_cases colon_append)

abbrev Str := List Char

abbrev isText (t : Tag) : Bool := isTag "text".toList t
abbrev says_ (t : Tag) : Str := (tagText t).getD []

/-! #### the search through the texts -/

theorem edit_at (k : Str) (v : Option Str) (t : Tag) (b : List Tag) (m : Match) (ht : isText t = true) (hm : hit k (says_ t) = some m) : ∀ (a : List Tag) (n : Nat),
    1 ≤ n + (a.filter isText).length → (∀ u ∈ (a.filter isText).drop (1 - n), hit k (says_ u) = none) →
    editTags k v n (a ++ t :: b) = some (match rewrite v (says_ t) m with
      | some w => (t.setAttr 8 (.str w)).map (fun u => a ++ u :: b)
      | none => some (a ++ b)) := by
  intro a
  induction a with
  | nil =>
    intro n hn _
    have hn : n ≠ 0 := by simp at hn; omega
    simp only [List.nil_append]
    unfold editTags
    rw [if_pos ht, if_neg hn, hm]
    show some _ = some _
    congr 1
  | cons x a ih =>
    intro n hn hu
    have wrap : ∀ n', editTags k v n' (a ++ t :: b) = some (match rewrite v (says_ t) m with
        | some w => (t.setAttr 8 (.str w)).map (fun u => a ++ u :: b)
        | none => some (a ++ b)) → (editTags k v n' (a ++ t :: b)).map (Option.map (x :: ·)) = some (match rewrite v (says_ t) m with
        | some w => (t.setAttr 8 (.str w)).map (fun u => (x :: a) ++ u :: b)
        | none => some ((x :: a) ++ b)) := by
      intro n' h
      rw [h]
      cases rewrite v (says_ t) m with
      | none => rfl
      | some w => simp only [Option.map_some, Option.map_map]; rfl
    rw [List.cons_append]
    conv_lhs => unfold editTags
    by_cases hx : isText x = true
    · rw [if_pos hx]
      simp only [List.filter_cons, hx, if_true] at hn hu
      by_cases h0 : n = 0
      · subst h0
        rw [if_pos rfl]
        exact wrap 1 (ih 1 (by omega) (by simpa using hu))
      · rw [if_neg h0]
        have e : 1 - n = 0 := by omega
        rw [e, List.drop_zero] at hu
        rw [hu x (by simp)]
        exact wrap (n + 1) (ih (n + 1) (by omega) (fun u hu' => hu u (List.mem_cons_of_mem _ (List.mem_of_mem_drop hu'))))
    · rw [if_neg hx]
      have hx' : isText x = false := by simpa using hx
      simp only [List.filter_cons, hx', Bool.false_eq_true, if_false] at hn hu
      exact wrap n (ih n hn hu)

theorem edit_none (k : Str) (v : Option Str) : ∀ (l : List Tag) (n : Nat), (∀ u ∈ (l.filter isText).drop (1 - n), hit k (says_ u) = none) → editTags k v n l = none := by
  intro l
  induction l with
  | nil => intro n _; rfl
  | cons x l ih =>
    intro n hu
    unfold editTags
    by_cases hx : isText x = true
    · rw [if_pos hx]
      simp only [List.filter_cons, hx, if_true] at hu
      by_cases h0 : n = 0
      · subst h0
        rw [if_pos rfl, ih 1 (by simpa using hu)]; rfl
      · rw [if_neg h0]
        have e : 1 - n = 0 := by omega
        rw [e, List.drop_zero] at hu
        rw [hu x (by simp)]
        simp only
        rw [ih (n + 1) (fun u hu' => hu u (List.mem_cons_of_mem _ (List.mem_of_mem_drop hu')))]; rfl
    · rw [if_neg hx]
      have hx' : isText x = false := by simpa using hx
      simp only [List.filter_cons, hx', Bool.false_eq_true, if_false] at hu
      rw [ih n hu]; rfl

theorem filter_split {l : List Tag} {A B : List Tag} {t : Tag} (h : l.filter isText = A ++ t :: B) :
    ∃ a b : List Tag, l = a ++ t :: b ∧ a.filter isText = A ∧ b.filter isText = B ∧ isText t = true := by
  obtain ⟨a, c, e, h1, h2⟩ := List.filter_eq_append_iff.1 h
  obtain ⟨p, q, e2, h3, h4, h5⟩ := List.filter_eq_cons_iff.1 h2
  refine ⟨a ++ p, q, by rw [e, e2]; simp, ?_, h5, h4⟩
  rw [List.filter_append, h1, List.filter_eq_nil_iff.2 (fun x hx => by simpa using h3 x hx), List.append_nil]

/-! #### what is written can be written -/

theorem sep_ne {s : Str} (h : Spec.ParamLine.Sep s) : s ≠ [] := by
  rcases h with ⟨a, b, rfl, _⟩ | ⟨_, h⟩
  · simp
  · intro e; rw [e] at h; cases h

theorem rest_head (b : List Item) (tail : Str) (ok : ∀ i ∈ b, i.Ok) (blank : Spec.ParamLine.Blank tail) : ∀ c, (b.flatMap Item.text ++ tail).head? = some c → isSpace c = true := by
  intro c hc
  cases b with
  | nil => exact blank c (List.mem_of_mem_head? hc)
  | cons i b =>
    have oki := ok i (by simp)
    obtain ⟨d, g, e⟩ := List.exists_cons_of_ne_nil oki.1
    simp only [List.flatMap_cons, Item.text, e, List.cons_append, List.head?_cons, Option.some.injEq] at hc
    exact oki.2.1 c (by rw [e, hc]; simp)

theorem set_text (s : Str) (ps : Pairs) (h : Shows s ps) (hx : NotHex s) (hp : Plain s) (k v : Str) (hk : k ∈ names ps) (hv : Value v) (hpv : Plain v) (m : Match) (hm : hit k s = some m) (w : Str)
    (hw : rewrite (some v) s m = some w) : Plain w ∧ NotHex w := by
  have e : w = splice s m.start m.stop v := by simp only [rewrite, Option.some.injEq] at hw; exact hw.symm
  refine ⟨by rw [e]; exact Props.QSession.splice_plain s v _ _ hp hpv hv, ?_⟩
  cases h with
  | word h1 h2 => simp [names] at hk
  | pairs items tail text ok blank =>
    obtain ⟨a, b, i, A, m', e', hi, ha, hA, hs, hm', h1, h2, h3⟩ := Props.QComp.hit_some s items tail text ok blank k hk
    rw [hm] at hm'
    obtain rfl := Option.some.inj hm'
    have oki := ok i (by rw [e']; simp)
    have l1 : k.length ≠ 0 := by
      rw [← hi]
      intro h0
      exact oki.2.2.1.1 (List.length_eq_zero_iff.1 h0)
    have l2 : i.sep.length ≠ 0 := fun h0 => sep_ne oki.2.2.2.1 (List.length_eq_zero_iff.1 h0)
    have hlen : 2 ≤ m.start := by rw [h2]; simp; omega
    have hls : m.start ≤ s.length := by rw [h2, hs]; simp
    unfold NotHex at hx ⊢
    rw [e]
    unfold splice
    rw [List.append_assoc, List.take_append_of_le_length (by rw [List.length_take]; omega), List.take_take, Nat.min_eq_left hlen]
    exact hx

theorem remove_text (s : Str) (ps : Pairs) (h : Shows s ps) (hx : NotHex s) (hp : Plain s) (k : Str) (hk : k ∈ names ps) (m : Match) (hm : hit k s = some m) (w : Str)
    (hw : rewrite none s m = some w) : Plain w ∧ NotHex w := by
  cases h with
  | word h1 h2 => simp [names] at hk
  | pairs items tail text ok blank =>
    obtain ⟨a, b, i, A, m', e', hi, ha, hA, hs, hm', h1, h2, h3⟩ := Props.QComp.hit_some s items tail text ok blank k hk
    rw [hm] at hm'
    obtain rfl := Option.some.inj hm'
    have oki := ok i (by rw [e']; simp)
    have hR := rest_head b tail (fun j hj => ok j (by rw [e']; simp [hj])) blank
    have ew : w = A ++ (b.flatMap Item.text ++ tail) := by
      simp only [rewrite] at hw
      split at hw
      · cases hw
      · rw [← Option.some.inj hw, h1, h3]
        have d1 : s = A ++ ((k ++ i.sep ++ i.value) ++ (b.flatMap Item.text ++ tail)) := by rw [hs]; simp
        have d2 : s = (A ++ (k ++ i.sep ++ i.value)) ++ (b.flatMap Item.text ++ tail) := by rw [hs]
        conv_lhs => rw [d1, List.take_left]
        conv_lhs => rw [← d1, d2, List.drop_left]
    generalize b.flatMap Item.text ++ tail = R at *
    have hsA : A <+: s := ⟨_, by rw [hs, List.append_assoc]⟩
    have hsR : R <:+ s := ⟨_, hs.symm⟩
    subst ew
    refine ⟨⟨?_, ?_⟩, ?_⟩
    · intro hq
      rcases List.mem_append.1 hq with hq | hq
      · exact hp.1 (hsA.subset hq)
      · exact hp.1 (hsR.subset hq)
    · intro hc
      rcases colon_append _ _ hc with hc | hc | ⟨hc, _⟩
      · exact hp.2 (hc.trans hsA.isInfix)
      · exact hp.2 (hc.trans hsR.isInfix)
      · -- the text before the pair ends with a blank
        have hl : (' ' :: A).getLast? = some ':' := by
          cases A with
          | nil => cases hc
          | cons x A => rw [List.getLast?_cons_cons]; exact hc
        rw [← hA] at hl
        have : i.gap.getLast? = some ':' := by
          rw [List.getLast?_append] at hl
          cases hg : i.gap.getLast? with
          | none => exact absurd (List.getLast?_eq_none_iff.1 hg) oki.1
          | some d => rw [hg] at hl; exact hl
        have := oki.2.1 _ (List.mem_of_getLast? this)
        revert this; decide
    · unfold NotHex at hx ⊢
      intro h0
      match A, h0, hsA with
      | [], h0, _ =>
        have : R.head? = some '0' := by
          cases R with
          | nil => cases h0
          | cons c R => simp at h0; rw [h0.1]; rfl
        have := hR _ this
        revert this; decide
      | [c], h0, _ =>
        have : R.head? = some 'x' := by
          cases R with
          | nil => simp at h0
          | cons d R => simp at h0; rw [h0.2]; rfl
        have := hR _ this
        revert this; decide
      | c :: d :: A, h0, hsA =>
        obtain ⟨z, hz⟩ := hsA
        apply hx
        rw [← hz]
        simpa using h0

/-- A new text of a component. -/
theorem newTag_ok (x y : Int) (s : Str) (hs : Plain s) :
    ∃ t, newTag (textHead "0.5".toList x y) s = .ok (t, []) ∧ TextTag t ∧ t.tokens.head? = some "text".toList ∧ tagText t = some s := by
  have h1 : Token "0.5".toList := by apply Props.Qsch.token_word; decide +kernel
  have h2 : ':' ∉ "0.5".toList := by decide
  have hq := hs.1
  have hp := hs.2
  have htt : TextTag (.mk (Props.QComp.textToks "0.5".toList x y s) []) := by
    refine ⟨(Props.QComp.textToks "0.5".toList x y s).take 8, s, rfl, rfl, ?_, hq, hp⟩
    intro w hw
    refine ⟨Props.QComp.textToks_tokens "0.5".toList h1 x y s hq w (List.mem_of_mem_take hw), ?_⟩
    have hn : ∀ n : Int, ':' ∉ showInt n := fun n h => (Lemmas.PyStr.showInt_props n _ h).2.2.2.2.2.2.2.2 rfl
    simp only [Props.QComp.textToks, List.take, List.mem_cons, List.not_mem_nil, or_false] at hw
    rcases hw with rfl | rfl | rfl | rfl | rfl | rfl | rfl | rfl
    · decide
    · simp only [List.cons_append, List.mem_cons, List.mem_append, List.not_mem_nil, or_false, not_or]
      exact ⟨by decide, ⟨hn x, by decide, hn y⟩, by decide⟩
    all_goals decide
  obtain ⟨t, e1, e2⟩ := Props.QComp.newTag_lit "0.5".toList h1 h2 x y s hq hp
  have hw := textTag_wf htt
  have hr := Props.Qsch.roundTrip _ hw 0 (Model.Qsch.join (Props.QComp.textToks "0.5".toList x y s) ++ ['»']).length.succ [] (Nat.lt_succ_self _)
  rw [Props.Qsch.body] at hr
  have e3 : newTag (textHead "0.5".toList x y) s = .ok (.mk (Props.QComp.textToks "0.5".toList x y s) [], []) := by
    unfold newTag
    have e : '«' :: textHead "0.5".toList x y ++ '"' :: s ++ ['"', '»'] = '«' :: (Model.Qsch.join (Props.QComp.textToks "0.5".toList x y s) ++ ['»']) := by
      rw [Props.QComp.textToks_join]
      simp only [List.append_assoc, List.cons_append, List.nil_append]
    rw [e]
    exact hr
  rw [e1] at e3
  simp only [Except.ok.injEq, Prod.mk.injEq] at e3
  obtain ⟨rfl, _⟩ := e3
  exact ⟨_, e1, htt, rfl, e2⟩

/-! #### the symbol of a component -/

theorem kind_text {t : Tag} (h : isText t = true) : kind t = .text (says_ t) := by unfold kind; rw [if_pos h]

theorem kind_other {t : Tag} (h : isText t = false) : kind t = .pin ∨ kind t = .other 0 := by
  unfold kind
  rw [if_neg (by rw [show isTag "text".toList t = false from h]; decide)]
  split
  · exact .inl rfl
  · exact .inr rfl

theorem textsOf_kind (l : List Tag) : Model.QComp.textsOf (l.map kind) = (l.filter isText).map says_ := by
  induction l with
  | nil => rfl
  | cons t l ih =>
    cases h : isText t with
    | true =>
      rw [List.map_cons, kind_text h, Props.QComp.textsOf_text, ih, List.filter_cons, if_pos h]; rfl
    | false =>
      rw [List.filter_cons, if_neg (by simp [h]), ← ih, List.map_cons]
      rcases kind_other h with e | e <;> rw [e] <;> rfl

theorem pin_kind {t : Tag} : kind t = .pin ↔ t.tokens.head? = some "pin".toList := by
  cases h : isText t with
  | true =>
    rw [kind_text h]
    have := (isTag_iff _ _).1 h
    rw [this]
    constructor
    · intro h; cases h
    · intro h; exact absurd h (by decide)
  | false =>
    unfold kind
    rw [if_neg (by rw [show isTag "text".toList t = false from h]; decide)]
    rw [← isTag_iff]
    split
    · rename_i h; exact ⟨fun _ => h, fun _ => rfl⟩
    · rename_i h; exact ⟨fun h => (by cases h), fun h' => absurd h' h⟩

/-- What a symbol holds. -/
structure Good (items : List Tag) (ref val : Str) (ps : Pairs) : Prop where
  texts : ∃ (ts : List Str) (pss : List Pairs), (items.filter isText).map says_ = ref :: val :: ts ∧ List.Forall₂ Shows ts pss ∧ pss.flatten = ps ∧ ∀ t ∈ ts, NotHex t
  distinct : (names ps).Nodup
  order : ∃ a b : List Tag, items = a ++ b ∧ (∀ t ∈ a, t.tokens.head? ≠ some "pin".toList) ∧ ∀ t ∈ b, t.tokens.head? ≠ some "text".toList
  wf : ∀ t ∈ items, WellFormed t ∧ (t.tokens.head? = some "text".toList → TextTag t)

theorem insert_at {items : List Tag} {ref val : Str} {ps : Pairs} (h : Good items ref val ps) (t : Tag) :
    ∃ p q : List Tag, items = p ++ q ∧ insertTags items t = p ++ t :: q ∧ (∀ x ∈ p, x.tokens.head? ≠ some "pin".toList) ∧ ∀ x ∈ q, x.tokens.head? ≠ some "text".toList := by
  obtain ⟨ts, pss, ht, _⟩ := h.texts
  obtain ⟨a, b, e, ha, hb⟩ := h.order
  have ha' : .pin ∉ a.map kind := by
    intro hm
    obtain ⟨x, hx, hk⟩ := List.mem_map.1 hm
    exact ha x hx (pin_kind.1 hk)
  have nt : ∀ l : List Tag, (Model.QComp.textsOf (l.map kind) = [] ↔ ∀ x ∈ l, x.tokens.head? ≠ some "text".toList) := by
    intro l
    rw [textsOf_kind, List.map_eq_nil_iff, List.filter_eq_nil_iff]
    exact ⟨fun h x hx hh => h x hx ((isTag_iff _ _).2 hh), fun h x hx hh => h x hx ((isTag_iff _ _).1 hh)⟩
  obtain ⟨P, Q, e1, h1, h2, h3⟩ := Props.QComp.place_lit (a.map kind) (b.map kind) 0 0 ha' ((nt b).2 hb) (Nat.le_refl _)
  rw [← List.map_append, ← e] at e1 h3
  have hpl : Model.QComp.place 0 0 (items.map kind) = P.length := by
    rcases h3 with h3 | ⟨_, h3⟩
    · rw [h3, Nat.zero_add]
    · rw [textsOf_kind, ht] at h3; cases h3
  have hle : P.length ≤ items.length := by
    have := congrArg List.length e1
    simp at this; omega
  have eP : (items.take P.length).map kind = P := by rw [List.map_take, e1, List.take_left]
  have eQ : (items.drop P.length).map kind = Q := by rw [List.map_drop, e1, List.drop_left]
  refine ⟨items.take P.length, items.drop P.length, (List.take_append_drop _ _).symm, ?_, ?_, ?_⟩
  · unfold insertTags
    rw [hpl]
    split
    · rfl
    · rename_i hn
      have : P.length = items.length := by omega
      rw [this, List.take_length, List.drop_length]
  · intro x hx hp
    exact h2 (by rw [← eP]; exact List.mem_map.2 ⟨x, hx, pin_kind.2 hp⟩)
  · exact (nt _).1 (by rw [eQ]; exact h1)

/-- A text in place of another one. -/
theorem order_swap {a b : List Tag} {t : Tag} (l : List Tag) (ht : t.tokens.head? = some "text".toList) (hl : ∀ u ∈ l, u.tokens.head? = some "text".toList)
    (h : ∃ p q : List Tag, a ++ t :: b = p ++ q ∧ (∀ x ∈ p, x.tokens.head? ≠ some "pin".toList) ∧ ∀ x ∈ q, x.tokens.head? ≠ some "text".toList) :
    ∃ p q : List Tag, a ++ l ++ b = p ++ q ∧ (∀ x ∈ p, x.tokens.head? ≠ some "pin".toList) ∧ ∀ x ∈ q, x.tokens.head? ≠ some "text".toList := by
  obtain ⟨p, q, e, hp, hq⟩ := h
  rcases List.append_eq_append_iff.1 e with ⟨c, h1, h2⟩ | ⟨c, h1, h2⟩
  · cases c with
    | nil =>
      rw [List.nil_append] at h2
      exact absurd ht (hq t (by rw [← h2]; simp))
    | cons z c =>
      simp only [List.cons_append, List.cons.injEq] at h2
      obtain ⟨rfl, rfl⟩ := h2
      refine ⟨a ++ l ++ c, q, by simp, ?_, hq⟩
      intro x hx
      simp only [List.mem_append] at hx
      rcases hx with (hx | hx) | hx
      · exact hp x (by rw [h1]; simp [hx])
      · rw [hl x hx]; decide
      · exact hp x (by rw [h1]; simp [hx])
  · exact absurd ht (hq t (by rw [h2]; simp))

theorem map_split {β : Type} {f : Tag → β} {l : List Tag} {A B : List β} {s : β} (h : l.map f = A ++ s :: B) :
    ∃ a b t, l = a ++ t :: b ∧ a.map f = A ∧ f t = s ∧ b.map f = B := by
  obtain ⟨a, c, e, h1, h2⟩ := List.map_eq_append_iff.1 h
  obtain ⟨t, b, e2, h3, h4⟩ := List.map_eq_cons_iff.1 h2
  exact ⟨a, b, t, by rw [e, e2], h1, h3, h4⟩

theorem notHex_name (k v : Str) (hk : Name k) (h : NotHex k) : NotHex (k ++ '=' :: v) := by
  unfold NotHex at h ⊢
  match k, hk, h with
  | [], hk, _ => exact absurd rfl hk.1
  | [c], _, _ => simp
  | c :: d :: k, _, h => simpa using h

theorem pair_plain (k v : Str) (hk : Name k) (hv : Plain v) : Plain (k ++ '=' :: v) := by
  have hn := Props.QComp.name_chars k hk
  refine ⟨?_, ?_⟩
  · intro h
    simp only [List.mem_append, List.mem_cons] at h
    rcases h with h | h | h
    · exact hn.1 h
    · exact absurd h (by decide)
    · exact hv.1 h
  · intro h
    have e : k ++ '=' :: v = (k ++ ['=']) ++ v := by simp
    rw [e] at h
    refine hv.2 (Props.QComp.colon_pre (k ++ ['=']) v (fun h => ?_) h)
    rcases List.mem_append.1 h with h | h
    · exact hn.2.1 h
    · exact absurd h (by decide)

/-- One setting, on a symbol. -/
theorem edit_symbol (x y : Int) (toks : List Str) {items : List Tag} {ref val : Str} {ps : Pairs} (h : Good items ref val ps) (k : Str) (v : Option Str) (hk : Name k) (hx : NotHex k)
    (hv : ∀ w, v = some w → Value w ∧ Plain w) (hval : ¬ k <:+: val) :
    ∃ (items' : List Tag) (ps' : Pairs), editSymbol x y k v (.mk toks items) = some (.mk toks items') ∧ Good items' ref val ps' ∧
      items'.filter (fun t => !isText t) = items.filter (fun t => !isText t) ∧ ∀ q, ps'.lookup q = if k = q then v else ps.lookup q := by
  obtain ⟨⟨ts, pss, ht, hf, rfl, hhex⟩, hn, hord, hwf⟩ := h
  by_cases hin : k ∈ names pss.flatten
  · obtain ⟨A, s, B, PA, p, PB, rfl, rfl, f1, f2, f3, f4, f5⟩ := Props.QComp.forall₂_split ts pss hf k hin
    have hfl : (PA ++ p :: PB).flatten = PA.flatten ++ p ++ PB.flatten := by simp
    rw [hfl] at hn
    have hnp : (names p).Nodup := by
      rw [Props.QComp.names_append, Props.QComp.names_append, List.nodup_append, List.nodup_append] at hn; exact hn.1.2.1
    have hts : (items.filter isText).map says_ = (ref :: val :: A) ++ s :: B := by rw [ht]; simp
    obtain ⟨U1, U2, t, e1, e2, e3, e4⟩ := map_split hts
    obtain ⟨a, b, rfl, g1, g2, g3⟩ := filter_split e1
    have hth := (isTag_iff _ _).1 g3
    have htt := (hwf t (by simp)).2 hth
    have hplain : Plain s := by
      obtain ⟨z, z1, z2⟩ := textTag_text htt hth
      rw [← e3]; unfold says_; rw [z1]; exact z2
    have hlen : 1 ≤ 0 + (a.filter isText).length := by
      rw [g1]
      have := congrArg List.length e2
      simp at this; omega
    have hno : ∀ u ∈ (a.filter isText).drop (1 - 0), hit k (says_ u) = none := by
      intro u hu
      rw [g1] at hu
      have : says_ u ∈ (U1.map says_).drop 1 := by rw [← List.map_drop]; exact List.mem_map_of_mem hu
      rw [e2] at this
      simp only [List.drop_succ_cons, List.drop_zero] at this
      rcases List.mem_cons.1 this with e | hm
      · rw [e]; exact Props.QComp.hit_absent k _ hval
      · exact Props.QComp.no_hits k A PA f1 f5 _ hm
    have done : ∀ (m : Match) (s' : Str) (p' : Pairs), hit k s = some m → rewrite v s m = some s' → Plain s' ∧ NotHex s' → Shows s' p' → (names (PA.flatten ++ p' ++ PB.flatten)).Nodup →
        (∀ q, (PA.flatten ++ p' ++ PB.flatten).lookup q = if k = q then v else (PA ++ p :: PB).flatten.lookup q) →
        ∃ (items' : List Tag) (ps' : Pairs), editSymbol x y k v (.mk toks (a ++ t :: b)) = some (.mk toks items') ∧ Good items' ref val ps' ∧
          items'.filter (fun t => !isText t) = (a ++ t :: b).filter (fun t => !isText t) ∧ ∀ q, ps'.lookup q = if k = q then v else (PA ++ p :: PB).flatten.lookup q := by
      intro m s' p' hm hr hs' hsh hnd hlk
      have hl8 : 8 < t.tokens.length := by
        obtain ⟨pre, z, rfl, hl, _⟩ := htt
        simp [Tag.tokens, hl]
      obtain ⟨u, hu⟩ := Props.Qsch.C38_accepted t 8 (.str s') hl8 (by simp)
      obtain ⟨u1, u2, u3, _⟩ := textTag_set htt hth hs'.1 hs'.2 hu
      have hut : isText u = true := (isTag_iff _ _).2 u2
      have hed := edit_at k v t b m g3 (by rw [e3]; exact hm) a 0 hlen hno
      rw [e3, hr] at hed
      simp only [hu, Option.map_some] at hed
      refine ⟨a ++ u :: b, PA.flatten ++ p' ++ PB.flatten, ?_, ⟨⟨A ++ s' :: B, PA ++ p' :: PB, ?_, List.rel_append f1 (.cons hsh f3), by simp, ?_⟩, hnd, ?_, ?_⟩, ?_, hlk⟩
      · unfold editSymbol
        simp only [Tag.items, Tag.tokens]
        rw [hed]; rfl
      · rw [filter_mid _ _ _ _ hut, g1, g2, List.map_append, List.map_cons, e2, e4]
        have : says_ u = s' := by unfold says_; rw [u3]; rfl
        rw [this]; simp
      · intro z hz
        simp only [List.mem_append, List.mem_cons] at hz
        rcases hz with hz | rfl | hz
        · exact hhex z (by simp [hz])
        · exact hs'.2
        · exact hhex z (by simp [hz])
      · have := order_swap [u] hth (by simpa using u2) hord
        simpa using this
      · intro z hz
        simp only [List.mem_append, List.mem_cons] at hz
        rcases hz with hz | rfl | hz
        · exact hwf z (by simp [hz])
        · exact ⟨textTag_wf u1, fun _ => u1⟩
        · exact hwf z (by simp [hz])
      · exact Props.QSession.filter_swap _ _ _ _ _ (by simp [hut]) (by simp [g3])
    have hhs : NotHex s := hhex s (by simp)
    cases v with
    | some w =>
      obtain ⟨w1, w2⟩ := hv w rfl
      obtain ⟨m, s', hm, hr, _, hS⟩ := Props.QComp.rewrite_set s p f2 hnp k w w1 f4
      refine done m s' _ hm hr (set_text s p f2 hhs hplain k w f4 w1 w2 m hm s' hr) hS ?_ ?_
      · rw [← Props.QComp.assign_mid k w _ _ _ hn f4, Props.QComp.names_assign k w _ (by rw [Props.QComp.names_append, Props.QComp.names_append]; simp [f4])]; exact hn
      · intro q
        rw [← Props.QComp.assign_mid k w _ _ _ hn f4, Props.QComp.lookup_assign, hfl]
        by_cases e : q = k
        · simp [e]
        · simp [e, Ne.symm e]
    | none =>
      obtain ⟨m, s', hm, hR, hr, hS⟩ := Props.QComp.rewrite_remove s p f2 hnp k f4
      have hnd : (names (PA.flatten ++ removePair k p ++ PB.flatten)).Nodup := by
        rw [← Props.QComp.remove_mid k _ _ _ hn f4]; exact Props.QComp.nodup_remove k _ hn
      have hlk : ∀ q, (PA.flatten ++ removePair k p ++ PB.flatten).lookup q = if k = q then none else (PA ++ p :: PB).flatten.lookup q := by
        intro q
        rw [← Props.QComp.remove_mid k _ _ _ hn f4, Props.QComp.lookup_remove, hfl]
        by_cases e : q = k
        · simp [e]
        · simp [e, Ne.symm e]
      by_cases hz : s' = []
      · rw [if_pos hz] at hr
        have hp0 : removePair k p = [] := by
          subst hz
          generalize removePair k p = z at hS
          cases hS with
          | word => rfl
          | pairs items tail text ok blank =>
            cases items with
            | nil => rfl
            | cons i l =>
              exfalso
              have oki := ok i (by simp)
              have := congrArg List.length text
              have n1 : i.gap.length ≠ 0 := fun h0 => oki.1 (List.length_eq_zero_iff.1 h0)
              have n2 : i.name.length ≠ 0 := fun h0 => oki.2.2.1.1 (List.length_eq_zero_iff.1 h0)
              simp [Item.text] at this
              omega
        have hed := edit_at k none t b m g3 (by rw [e3]; exact hm) a 0 hlen hno
        rw [e3, hr] at hed
        simp only at hed
        refine ⟨a ++ b, PA.flatten ++ removePair k p ++ PB.flatten, ?_, ⟨⟨A ++ B, PA ++ PB, ?_, List.rel_append f1 f3, by rw [hp0]; simp, ?_⟩, hnd, ?_, ?_⟩, ?_, hlk⟩
        · unfold editSymbol
          simp only [Tag.items, Tag.tokens]
          rw [hed]; rfl
        · rw [List.filter_append, g1, g2, List.map_append, e2, e4]; simp
        · intro z hz
          exact hhex z (by simp only [List.mem_append, List.mem_cons] at hz ⊢; tauto)
        · have := order_swap [] hth (by simp) hord
          simpa using this
        · intro z hz
          exact hwf z (by simp only [List.mem_append, List.mem_cons] at hz ⊢; tauto)
        · rw [List.filter_append, List.filter_append, List.filter_cons_of_neg (by simp [g3])]
      · rw [if_neg hz] at hr
        exact done m s' _ hm hr (remove_text s p f2 hhs hplain k f4 m hm s' hr) hS hnd hlk
  · have hed : editTags k v 0 items = none := by
      apply edit_none
      intro u hu
      have : says_ u ∈ ((items.filter isText).map says_).drop 1 := by rw [← List.map_drop]; exact List.mem_map_of_mem hu
      rw [ht] at this
      simp only [List.drop_succ_cons, List.drop_zero] at this
      rcases List.mem_cons.1 this with e | hm
      · rw [e]; exact Props.QComp.hit_absent k _ hval
      · exact Props.QComp.no_hits k ts pss hf hin _ hm
    cases v with
    | none =>
      refine ⟨items, pss.flatten, ?_, ⟨⟨ts, pss, ht, hf, rfl, hhex⟩, hn, hord, hwf⟩, rfl, ?_⟩
      · unfold editSymbol
        simp only [Tag.items]
        rw [hed]
      · intro q
        by_cases e : k = q
        · subst e; rw [if_pos rfl]; exact (Props.SchComp.lookup_none _ _).2 hin
        · rw [if_neg e]
    | some w =>
      obtain ⟨w1, w2⟩ := hv w rfl
      obtain ⟨t, n1, n2, n3, n4⟩ := newTag_ok x y (k ++ '=' :: w) (pair_plain k w hk w2)
      obtain ⟨p, q, e, hins, hp, hq⟩ := insert_at ⟨⟨ts, pss, ht, hf, rfl, hhex⟩, hn, hord, hwf⟩ t
      have htx : isText t = true := (isTag_iff _ _).2 n3
      have hqf : q.filter isText = [] := List.filter_eq_nil_iff.2 (fun z hz hh => hq z hz ((isTag_iff _ _).1 hh))
      refine ⟨p ++ t :: q, assignPair k w pss.flatten, ?_, ⟨⟨ts ++ [k ++ '=' :: w], pss ++ [[(k, w)]], ?_, List.rel_append hf (.cons (Props.QComp.shows_new k w hk w1) .nil), ?_, ?_⟩, ?_, ?_, ?_⟩, ?_, ?_⟩
      · unfold editSymbol
        simp only [Tag.items, Tag.tokens]
        rw [hed]
        simp only [n1, hins]
      · rw [e, List.filter_append, hqf, List.append_nil] at ht
        rw [filter_mid _ _ _ _ htx, hqf, List.map_append, ht]
        have : says_ t = k ++ '=' :: w := by unfold says_; rw [n4]; rfl
        simp [this]
      · rw [assignPair, if_neg hin]; simp
      · intro z hz
        rcases List.mem_append.1 hz with hz | hz
        · exact hhex z hz
        · rw [List.mem_singleton.1 hz]; exact notHex_name k w hk hx
      · rw [assignPair, if_neg hin, Props.QComp.names_append, List.nodup_append]
        exact ⟨hn, by simp [names], by
          intro a ha b hb hab
          simp only [names, List.map_cons, List.map_nil, List.mem_singleton] at hb
          exact hin (by rw [← hb, ← hab]; exact ha)⟩
      · refine ⟨p ++ [t], q, by simp, ?_, hq⟩
        intro z hz
        rcases List.mem_append.1 hz with hz | hz
        · exact hp z hz
        · rw [List.mem_singleton.1 hz, n3]; decide
      · intro z hz
        simp only [List.mem_append, List.mem_cons] at hz
        rcases hz with hz | rfl | hz
        · exact hwf z (by rw [e]; simp [hz])
        · exact ⟨textTag_wf n2, fun _ => n2⟩
        · exact hwf z (by rw [e]; simp [hz])
      · rw [e, List.filter_append, List.filter_append, List.filter_cons_of_neg (by simp [htx])]
      · intro q'
        rw [Props.QComp.lookup_assign]
        by_cases e : q' = k
        · simp [e]
        · simp [e, Ne.symm e]

/-! #### the component -/

theorem mk_eq (t : Tag) : t = .mk t.tokens t.items := by cases t; rfl

theorem says_some {t : Tag} (h : TextTag t) (ht : isText t = true) : tagText t = some (says_ t) := by
  obtain ⟨z, z1, _⟩ := textTag_text h ((isTag_iff _ _).1 ht)
  unfold says_; rw [z1]; rfl

theorem textAt_eq {toks ytoks : List Str} {items : List Tag} (h : SymbolTag (.mk ytoks items)) (n : Nat) :
    textAt (.mk toks [.mk ytoks items]) n = ((items.filter isText).map says_)[n]? := by
  unfold textAt
  rw [symbolOf_comp h]
  simp only [Option.bind_some, kids, Tag.items, List.getElem?_map]
  cases hg : (items.filter (isTag "text".toList))[n]? with
  | none => simp [hg]
  | some t =>
    obtain ⟨m1, m2⟩ := List.mem_filter.1 (List.mem_of_getElem? hg)
    have := says_some ((h.2.2.1 t m1).2 ((isTag_iff _ _).1 m2)) m2
    simp [hg, this]

theorem symbol_of_good {ytoks : List Str} {items items' : List Tag} {ref val : Str} {ps : Pairs} (h : SymbolTag (.mk ytoks items)) (hg : Good items' ref val ps) : SymbolTag (.mk ytoks items') := by
  refine ⟨h.1, h.2.1, hg.wf, ?_⟩
  obtain ⟨ts, pss, e, _⟩ := hg.texts
  have := congrArg List.length e
  simp only [List.length_map, List.length_cons] at this
  show 2 ≤ (items'.filter isText).length
  omega

/-- A component found on a sheet, and what its texts hold. -/
theorem found {s : Sch} (hs : SheetOk s) {r : Str} {c : Tag} (hc : s.items.find? (isComp r) = some c) {ps : Pairs} (h : HasPairs s r ps) :
    ∃ (toks ytoks : List Str) (items : List Tag) (val : Str), c = .mk toks [.mk ytoks items] ∧ CompTag c ∧ SymbolTag (.mk ytoks items) ∧ Good items r val ps ∧ getValue s r = some val := by
  have hct := Props.QSession.found_comp hs hc
  have hr := (Props.QSession.comp_of (List.find?_some hc)).2
  have hct' := hct
  obtain ⟨toks, y, rfl, h1, h2, h3⟩ := hct'
  obtain ⟨ytoks, items⟩ := y
  obtain ⟨ref, val, ts, pss, e, hf, hfl, hx⟩ := h.shows
  unfold symbolTexts at e
  rw [hc] at e
  simp only [Option.bind_some, symbolOf_comp h3, Option.map_some, Option.some.injEq, kids, Tag.items] at e
  have e : (items.filter isText).map says_ = ref :: val :: ts := e
  rw [textAt_eq h3, e] at hr
  simp only [List.getElem?_cons_zero, Option.some.injEq] at hr
  subst hr
  refine ⟨toks, ytoks, items, val, rfl, hct, h3, ⟨⟨ts, pss, e, hf, hfl, hx⟩, h.distinct, h.order _ hc (.mk ytoks items) (by simp [Tag.items]), h3.2.2.1⟩, ?_⟩
  unfold getValue
  rw [hc, Option.bind_some, textAt_eq h3, e]; rfl

theorem made {s : Sch} {r : Str} {toks ytoks : List Str} {items : List Tag} {ref val : Str} {ps : Pairs} (hc : s.items.find? (isComp r) = some (.mk toks [.mk ytoks items]))
    (hy : SymbolTag (.mk ytoks items)) (hg : Good items ref val ps) : HasPairs s r ps ∧ getValue s r = some val := by
  obtain ⟨ts, pss, e, hf, hfl, hx⟩ := hg.texts
  refine ⟨⟨⟨ref, val, ts, pss, ?_, hf, hfl, hx⟩, hg.distinct, ?_⟩, ?_⟩
  · unfold symbolTexts
    rw [hc]
    simp only [Option.bind_some, symbolOf_comp hy, Option.map_some, Option.some.injEq, kids, Tag.items]
    exact e
  · intro c h y hm
    rw [hc] at h
    obtain rfl := Option.some.inj h
    simp only [Tag.items, List.mem_singleton] at hm
    subst hm
    exact hg.order
  · unfold getValue
    rw [hc, Option.bind_some, textAt_eq hy, e]; rfl

theorem part_eq {s : Sch} {r : Str} {ps : Pairs} (h : HasPairs s r ps) (k : Str) : getPart s r k = ps.lookup k := by
  obtain ⟨ref, val, ts, pss, e, hf, rfl, _⟩ := h.shows
  unfold getPart
  rw [e]
  show (readTexts 2 ts []).lookup _ = _
  rw [Props.QComp.readTexts_names k ts pss hf 2 [] h.distinct]; simp

theorem pairs_same {s s' : Sch} {r : Str} {ps : Pairs} (e : s'.items.find? (isComp r) = s.items.find? (isComp r)) (h : HasPairs s r ps) : HasPairs s' r ps := by
  obtain ⟨⟨ref, val, ts, pss, a, b⟩, d, o⟩ := h
  exact ⟨⟨ref, val, ts, pss, by unfold symbolTexts at a ⊢; rw [e]; exact a, b⟩, d, fun c hc => o c (by rw [← e]; exact hc)⟩

theorem part_same {s s' : Sch} {r : Str} (e : s'.items.find? (isComp r) = s.items.find? (isComp r)) (k : Str) : getPart s' r k = getPart s r k := by
  unfold getPart symbolTexts; rw [e]

/-! #### the other calls -/

theorem single {y z : Tag} {a b : List Tag} (e : [y] = a ++ z :: b) : a = [] ∧ z = y ∧ b = [] := by
  cases a with
  | nil => simp only [List.nil_append, List.cons.injEq] at e; exact ⟨rfl, e.1.symm, e.2.symm⟩
  | cons x a => simp at e

theorem setVal_good {toks ytoks : List Str} {items : List Tag} {ref val v : Str} {ps : Pairs} {c' : Tag} (hg : Good items ref val ps) (hv : Plain v) (hx : v.take 2 ≠ ['0', 'x'])
    (h : setVal v (.mk toks [.mk ytoks items]) = some c') : ∃ items', c' = .mk toks [.mk ytoks items'] ∧ Good items' ref v ps := by
  unfold setVal at h
  obtain ⟨l1, hl1, rfl⟩ := Option.map_eq_some_iff.1 h
  obtain ⟨a, t, b, z, e1, _, e3, rfl, _⟩ := Props.QSession.updNth_some hl1
  obtain ⟨rfl, rfl, rfl⟩ := single e1
  obtain ⟨l2, hl2, rfl⟩ := Option.map_eq_some_iff.1 e3
  obtain ⟨a, t, b, u, e4, e5, e6, rfl, e7⟩ := Props.QSession.updNth_some hl2
  have e4 : items = a ++ t :: b := e4
  subst e4
  obtain ⟨⟨ts, pss, ht, hf, rfl, hhex⟩, hn, hord, hwf⟩ := hg
  have hth := (isTag_iff _ _).1 e5
  obtain ⟨u1, u2, u3, _⟩ := textTag_set ((hwf t (by simp)).2 hth) hth hv hx e6
  have hut : isText u = true := (isTag_iff _ _).2 u2
  refine ⟨a ++ u :: b, rfl, ⟨ts, pss, ?_, hf, rfl, hhex⟩, hn, ?_, ?_⟩
  · rw [filter_mid _ _ _ _ e5, List.map_append, List.map_cons] at ht
    rw [filter_mid _ _ _ _ hut, List.map_append, List.map_cons]
    have hl : ((a.filter isText).map says_).length = 1 := by rw [List.length_map]; exact e7
    obtain ⟨w, hw⟩ := List.length_eq_one_iff.1 hl
    rw [hw] at ht ⊢
    simp only [List.cons_append, List.nil_append, List.cons.injEq] at ht ⊢
    refine ⟨ht.1, ?_, ht.2.2⟩
    unfold says_; rw [u3]; rfl
  · have := order_swap [u] hth (by simpa using u2) hord
    simpa using this
  · intro z hz
    simp only [List.mem_append, List.mem_cons] at hz
    rcases hz with hz | rfl | hz
    · exact hwf z (by simp [hz])
    · exact ⟨textTag_wf u1, fun _ => u1⟩
    · exact hwf z (by simp [hz])

theorem place_items {c c' : Tag} {x y d : Int} {mirror : Bool} (hc : CompTag c) (h : Model.QSession.place x y d mirror c = some c') : c'.items = c.items := by
  obtain ⟨toks, s, rfl, h1, h2, h3⟩ := hc
  obtain ⟨t1, q1⟩ := Props.Qsch.C38_accepted (.mk toks [s]) 1 (.pair x y) (by simp only [Tag.tokens]; omega) (by simp)
  have hl := (Props.Qsch.C38_frame _ t1 1 _ q1).2.2
  have hi := (Props.Qsch.C38_frame _ t1 1 _ q1).2.1
  obtain ⟨t2, q2⟩ := Props.Qsch.C38_accepted t1 2 (.int ((d % 360) / 45 + if mirror then 8 else 0)) (by rw [hl]; simp only [Tag.tokens]; omega) (by simp)
  have hi2 := (Props.Qsch.C38_frame _ t2 2 _ q2).2.1
  have e : Model.Qsch.setPosition (.mk toks [s]) x y (.int d) mirror = (t2, false) := by
    unfold Model.Qsch.setPosition
    rw [q1]
    simp only
    rw [q2]
  unfold Model.QSession.place at h
  rw [e] at h
  simp only [Bool.false_eq_true, if_false, Option.some.injEq] at h
  rw [← h, hi2, hi]

abbrev OnSheet (s : Sch) (r : Str) : Prop := ∃ c, s.items.find? (isComp r) = some c

theorem base_step {s s' : Sch} {op : Model.QSession.Op} (hs : SheetOk s) (hp : ParamsOk (texts s.items)) (ha : ArgsOk op) (h : Model.QSession.step s op = some s') (r : Str) (hr : OnSheet s' r) :
    OnSheet s r ∧ ∀ ps, HasPairs s r ps → HasPairs s' r ps := by
  have same : s'.items.find? (isComp r) = s.items.find? (isComp r) → OnSheet s r ∧ ∀ ps, HasPairs s r ps → HasPairs s' r ps := by
    intro e
    exact ⟨by obtain ⟨c, hc⟩ := hr; exact ⟨c, by rw [← e]; exact hc⟩, fun ps hps => pairs_same e hps⟩
  have changed : ∀ r0 c c', CompEffect s s' r0 c c' → (∀ ps, r = r0 → HasPairs s r ps → HasPairs s' r ps) → OnSheet s r ∧ ∀ ps, HasPairs s r ps → HasPairs s' r ps := by
    intro r0 c c' he hh
    by_cases e : r = r0
    · subst e
      exact ⟨⟨c, (he.find r).1⟩, fun ps => hh ps rfl⟩
    · exact same (by rw [(he.find r).2, if_neg e])
  cases op with
  | value r0 v =>
    simp only [Model.QSession.step] at h
    rcases onComp_cases hs h with ⟨rfl, _⟩ | ⟨c, c', h1, h2, h3⟩
    · exact same rfl
    · obtain ⟨k1, k2, k3, _, _⟩ := Props.QSession.setVal_comp h1 ha.1 ha.2 h2
      have he := h3 k1 (by rw [k2]) k3
      refine changed r0 c c' he ?_
      rintro ps rfl hps
      obtain ⟨toks, ytoks, items, val, rfl, _, hy, hg, _⟩ := found hs (he.find r).1 hps
      obtain ⟨items', rfl, hg'⟩ := setVal_good hg ha.1 ha.2 h2
      exact (made (by rw [(he.find r).2, if_pos rfl]) (symbol_of_good hy hg') hg').1
  | move r0 x y d mirror =>
    simp only [Model.QSession.step] at h
    rcases onComp_cases hs h with ⟨rfl, _⟩ | ⟨c, c', h1, h2, h3⟩
    · exact same rfl
    · obtain ⟨k1, k2, k3, _⟩ := Props.QSession.place_comp h1 h2
      have he := h3 k1 k2 (k3 0)
      refine changed r0 c c' he ?_
      rintro ps rfl hps
      obtain ⟨toks, ytoks, items, val, rfl, _, hy, hg, _⟩ := found hs (he.find r).1 hps
      have hi := place_items h1 h2
      have e : c' = .mk c'.tokens [.mk ytoks items] := by rw [mk_eq c', hi]; rfl
      exact (made (by rw [(he.find r).2, if_pos rfl, e]) hy hg).1
  | remove r0 =>
    obtain ⟨_, _, h3⟩ := Props.QSession.remove_ok hs h
    by_cases e : r = r0
    · obtain ⟨c, hc⟩ := hr
      rw [h3, if_pos e] at hc; cases hc
    · exact same (by rw [h3, if_neg e])
  | param x y p v => exact same ((Props.QSession.param_effect hs hp ha h).1.find r)
  | instruct x y i => exact same ((Props.QSession.instruct_effect hs ha h).1.find r)
  | drop i => exact same ((Props.QSession.drop_effect hs h).1.find r)
  | dropAll m => exact same ((Props.QSession.dropAll_effect hs h).1.find r)
  | reopen => exact same (by rw [Props.QSession.reopen_effect hs h])

/-! #### a setting -/

theorem editComp_eq (x y : Int) (k : Str) (v : Option Str) {toks ytoks : List Str} {items items' : List Tag} (hy : SymbolTag (.mk ytoks items))
    (h : editSymbol x y k v (.mk ytoks items) = some (.mk ytoks items')) : editComp x y k v (.mk toks [.mk ytoks items]) = some (.mk toks [.mk ytoks items']) := by
  have : isTag "symbol".toList (.mk ytoks items) = true := (isTag_iff _ _).2 hy.1
  simp only [editComp, Tag.items, Tag.tokens, updNth, this, if_true, h, Option.map_some]

theorem updNth_first {p : Tag → Bool} {f : Tag → Option Tag} {c : Tag} {b : List Tag} (hc : p c = true) : ∀ (a : List Tag), (∀ x ∈ a, p x = false) →
    updNth p f 0 (a ++ c :: b) = (f c).map (fun u => a ++ u :: b) := by
  intro a
  induction a with
  | nil => intro _; simp only [List.nil_append, updNth, hc, if_true]
  | cons x a ih =>
    intro h
    have hx := h x (by simp)
    simp only [List.cons_append, updNth, hx, Bool.false_eq_true, if_false]
    rw [ih (fun z hz => h z (by simp [hz])), Option.map_map]; rfl

/-- One setting of a parameter of a component on the sheet: it is carried out. -/
theorem part_done {s : Sch} (x y : Int) {r k : Str} {v : Option Str} {ps : Pairs} {val : Str} (hs : SheetOk s) (hps : HasPairs s r ps) (hval : getValue s r = some val)
    (hk : Name k) (hx : NotHex k) (hv : ∀ w, v = some w → Value w ∧ Plain w) (hn : ¬ k <:+: val) :
    ∃ s' c c' ps', Model.QParts.step s (.part x y r k v) = some s' ∧ CompEffect s s' r c c' ∧ HasPairs s' r ps' ∧ getValue s' r = some val ∧
      (∀ q, ps'.lookup q = if k = q then v else ps.lookup q) ∧
      c'.tokens = c.tokens ∧ c'.items.map (fun z => z.items.filter (fun t => !isText t)) = c.items.map (fun z => z.items.filter (fun t => !isText t)) ∧
      c'.items.map Tag.tokens = c.items.map Tag.tokens := by
  have hmem : ∃ d, s.items.find? (isComp r) = some d := by
    unfold getValue at hval
    cases hd : s.items.find? (isComp r) with
    | none => rw [hd] at hval; cases hval
    | some d => exact ⟨d, rfl⟩
  obtain ⟨c, hc⟩ := hmem
  obtain ⟨toks, ytoks, items, val', rfl, hct, hy, hg, hval'⟩ := found hs hc hps
  rw [hval] at hval'
  obtain rfl := Option.some.inj hval'
  obtain ⟨items', ps', e1, hg', hf, hlk⟩ := edit_symbol x y ytoks hg k v hk hx hv hn
  have hy' := symbol_of_good hy hg'
  obtain ⟨hp, a, b, e, ha⟩ := List.find?_eq_some_iff_append.1 hc
  have ha : ∀ z ∈ a, isComp r z = false := fun z hz => by simpa using ha z hz
  have hgone : r ∉ s.gone := fun h => by rw [Props.QSession.gone_find hs h] at hc; cases hc
  have hstep : Model.QParts.step s (.part x y r k v) = some { s with items := a ++ .mk toks [.mk ytoks items'] :: b } := by
    show onComp s r _ = _
    unfold onComp
    rw [if_neg hgone, e, updNth_first hp a ha, editComp_eq x y k v hy e1]; rfl
  have hct' : CompTag (.mk toks [.mk ytoks items']) := by
    obtain ⟨t2, y2, e2, h1, h2, _⟩ := hct
    simp only [Tag.mk.injEq] at e2
    obtain ⟨rfl, _⟩ := e2
    exact ⟨_, _, rfl, h1, h2, hy'⟩
  have h0 : ∀ n, n < 2 → textAt (.mk toks [.mk ytoks items']) n = textAt (.mk toks [.mk ytoks items]) n := by
    intro n hn
    rw [textAt_eq hy', textAt_eq hy]
    obtain ⟨ts, _, e2, _⟩ := hg.texts
    obtain ⟨ts', _, e3, _⟩ := hg'.texts
    rw [e2, e3]
    match n, hn with
    | 0, _ => rfl
    | 1, _ => rfl
  have he : CompEffect s { s with items := a ++ .mk toks [.mk ytoks items'] :: b } r (.mk toks [.mk ytoks items]) (.mk toks [.mk ytoks items']) :=
    ⟨⟨a, b, e, rfl, ha⟩, hp, hct', rfl, h0 0 (by omega)⟩
  obtain ⟨m1, m2⟩ := made (by rw [(he.find r).2, if_pos rfl]) hy' hg'
  exact ⟨_, _, _, ps', hstep, he, m1, m2, hlk, rfl, by simp only [Tag.items, List.map_cons, List.map_nil, hf], rfl⟩

/-! #### the session -/

theorem run_cons {s s' : Sch} {c : Cmd} {cs : List Cmd} (h : Model.QParts.run s (c :: cs) = some s') : ∃ t, Model.QParts.step s c = some t ∧ Model.QParts.run t cs = some s' := by
  simp only [Model.QParts.run] at h
  exact Option.bind_eq_some_iff.1 h

/-- What holds between the calls. -/
structure Inv (R : Str → Prop) (K : Str → Str → Prop) (s : Sch) : Prop where
  ok : SheetOk s
  params : ParamsOk (texts s.items)
  pairs : ∀ r, R r → OnSheet s r → ∃ ps, HasPairs s r ps
  apart : Apart K s

theorem base_inv {R : Str → Prop} {K : Str → Str → Prop} {s t : Sch} {op : Model.QSession.Op} (hi : Inv R K s) (hl : Legal R K (.base op)) (h : Model.QSession.step s op = some t) : Inv R K t := by
  obtain ⟨ha, hw⟩ := hl
  refine ⟨Props.QSession.step_ok hi.ok hi.params ha h, (Props.QSession.step_param hi.ok hi.params ha h).1, ?_, ?_⟩
  · intro r hr ho
    obtain ⟨h1, h2⟩ := base_step hi.ok hi.params ha h r ho
    obtain ⟨ps, hps⟩ := hi.pairs r hr h1
    exact ⟨ps, h2 ps hps⟩
  · intro r k w hk hv
    rw [Props.QSession.step_value hi.ok hi.params ha h r] at hv
    cases op with
    | value r' v =>
      simp only [Spec.QSession.valueAfter] at hv
      split at hv
      · rename_i e
        subst e
        cases ho : getValue s r' with
        | none => rw [ho] at hv; cases hv
        | some z =>
          rw [ho] at hv
          obtain rfl := Option.some.inj hv
          exact hw r' v rfl k hk
      · exact hi.apart r k w hk hv
    | remove r' =>
      simp only [Spec.QSession.valueAfter] at hv
      split at hv
      · cases hv
      · exact hi.apart r k w hk hv
    | _ => exact hi.apart r k w hk hv

/-- What a setting leaves as it is. -/
structure Frame (s t : Sch) : Prop where
  texts : Model.QSession.texts t.items = Model.QSession.texts s.items
  others : Spec.QSession.others t = Spec.QSession.others s
  refs : Spec.QSession.refs t = Spec.QSession.refs s
  comments : Spec.QSession.comments t = Spec.QSession.comments s
  value : ∀ r, getValue t r = getValue s r
  place : ∀ r, getPlace t r = getPlace s r
  on : ∀ r, OnSheet t r → OnSheet s r
  gone : t.gone = s.gone

theorem effect_refs {s t : Sch} {r : Str} {c c' : Tag} (h : CompEffect s t r c c') : Spec.QSession.refs t = Spec.QSession.refs s := by
  obtain ⟨a, b, e, rfl, _⟩ := h.items
  have h1 := (Props.QSession.comp_of h.was).1
  have i1 : isTag "component".toList c = true := (isTag_iff _ _).2 h1
  have i2 : isTag "component".toList c' = true := (isTag_iff _ _).2 (h.head.trans h1)
  unfold Spec.QSession.refs
  rw [e]
  show (List.filter _ (a ++ c' :: b)).map _ = _
  rw [filter_mid _ _ _ _ i1, filter_mid _ _ _ _ i2]
  simp only [List.map_append, List.map_cons]
  rw [h.ref]

theorem effect_comments {s t : Sch} {r : Str} {c c' : Tag} (h : CompEffect s t r c c') : Spec.QSession.comments t = Spec.QSession.comments s := by
  obtain ⟨a, b, e, rfl, _⟩ := h.items
  have f : ∀ t : Tag, t.tokens.head? = some "component".toList → isTag "text".toList t = false := by
    intro t ht
    unfold isTag
    rw [ht]; decide
  have h1 := (Props.QSession.comp_of h.was).1
  unfold Spec.QSession.comments
  rw [e]
  show List.filter _ (a ++ c' :: b) = _
  exact Props.QSession.filter_swap _ _ _ _ _ (by rw [f c' (h.head.trans h1)]; rfl) (by rw [f c h1]; rfl)

theorem part_inv {R : Str → Prop} {K : Str → Str → Prop} {s t : Sch} {x y : Int} {r k : Str} {v : Option Str} (hi : Inv R K s) (hl : Legal R K (.part x y r k v))
    (h : Model.QParts.step s (.part x y r k v) = some t) : Inv R K t ∧ Frame s t ∧ (∀ q, q ≠ r → ∀ j, getPart t q j = getPart s q j) ∧
      (OnSheet s r → ∀ j, getPart t r j = if k = j then v else getPart s r j) := by
  obtain ⟨hr, hkk, hk, hx, hv⟩ := hl
  by_cases ho : OnSheet s r
  · obtain ⟨ps, hps⟩ := hi.pairs r hr ho
    obtain ⟨c0, hc0⟩ := ho
    obtain ⟨_, _, _, val, _, _, _, _, hval⟩ := found hi.ok hc0 hps
    obtain ⟨s', c, c', ps', h1, he, hps', hval', hlk, htk, _⟩ := part_done x y hi.ok hps hval hk hx hv (hi.apart r k val hkk hval)
    rw [h] at h1
    obtain rfl := Option.some.inj h1
    have hf : ∀ q, q ≠ r → t.items.find? (isComp q) = s.items.find? (isComp q) := fun q hq => by rw [(he.find q).2, if_neg hq]
    have hvals : ∀ q, getValue t q = getValue s q := by
      intro q
      by_cases e : q = r
      · subst e; rw [hval, hval']
      · exact Props.QSession.value_same (hf q e)
    have hon : ∀ q, OnSheet t q → OnSheet s q := by
      intro q ⟨d, hd⟩
      by_cases e : q = r
      · subst e; exact ⟨c0, hc0⟩
      · exact ⟨d, by rw [← hf q e]; exact hd⟩
    refine ⟨⟨he.ok hi.ok, by rw [he.noTexts]; exact hi.params, ?_, fun q j w hq hw => hi.apart q j w hq (by rw [← hvals]; exact hw)⟩,
      ⟨he.noTexts, he.others, effect_refs he, effect_comments he, hvals, ?_, hon, ?_⟩, ?_, ?_⟩
    · intro q hq hoq
      by_cases e : q = r
      · subst e; exact ⟨ps', hps'⟩
      · obtain ⟨qs, hqs⟩ := hi.pairs q hq (hon q hoq)
        exact ⟨qs, pairs_same (hf q e) hqs⟩
    · intro q
      by_cases e : q = r
      · subst e
        unfold getPlace
        rw [(he.find q).2, if_pos rfl, (he.find q).1]
        simp only [Option.map_some, Option.some.injEq, Prod.mk.injEq]
        unfold Tag.getAttr
        rw [htk]
        exact ⟨rfl, rfl⟩
      · exact Props.QSession.place_same (hf q e)
    · obtain ⟨a, b, _, e, _⟩ := he.items
      rw [e]
    · intro q hq j; exact part_same (hf q hq) j
    · intro _ j
      rw [part_eq hps', part_eq hps, hlk]
  · have e : t = s := by
      simp only [Model.QParts.step] at h
      unfold onComp at h
      split at h
      · exact (Option.some.inj h).symm
      · exfalso
        obtain ⟨l, hl, _⟩ := Option.map_eq_some_iff.1 h
        obtain ⟨a, c, b, u, e1, e2, _⟩ := Props.QSession.updNth_zero hl
        apply ho
        have : (s.items.find? (isComp r)).isSome := by rw [List.find?_isSome]; exact ⟨c, by rw [e1]; simp, e2⟩
        exact Option.isSome_iff_exists.1 this
    subst e
    exact ⟨hi, ⟨rfl, rfl, rfl, rfl, fun _ => rfl, fun _ => rfl, fun _ h => h, rfl⟩, fun _ _ _ => rfl, fun h => absurd h ho⟩

theorem foldl_same {β : Type} {f : β → Model.QSession.Op → β} (op : Model.QSession.Op) (cs : List Cmd) (b : β) : (Spec.QParts.others (Cmd.base op :: cs)).foldl f b = (Spec.QParts.others cs).foldl f (f b op) := rfl

theorem run_all (R : Str → Prop) (K : Str → Str → Prop) (cs : List Cmd) : ∀ (s s' : Sch), Inv R K s → (∀ c ∈ cs, Legal R K c) → Model.QParts.run s cs = some s' →
    Inv R K s' ∧
    (∀ r, R r → OnSheet s' r → OnSheet s r ∧ ∀ k, getPart s' r k = Spec.SchComp.valueAfter id k (getPart s r k) (partsSaid r cs)) ∧
    (∀ r, getValue s' r = (Spec.QParts.others cs).foldl (Spec.QSession.valueAfter r) (getValue s r)) ∧
    (∀ r, getPlace s' r = (Spec.QParts.others cs).foldl (placeAfter r) (getPlace s r)) ∧
    TextsRun (Spec.QParts.others cs) (texts s.items) (texts s'.items) ∧
    Spec.QSession.others s' = Spec.QSession.others s ∧ Spec.QSession.comments s' = Spec.QSession.comments s ∧
    Spec.QSession.refs s' = (Spec.QSession.refs s).filter (fun r => decide (∀ op ∈ Spec.QParts.others cs, ¬ ∃ q, r = some q ∧ Removes q op)) := by
  induction cs with
  | nil =>
    intro s s' hi _ h
    simp only [Model.QParts.run, Option.some.injEq] at h
    subst h
    exact ⟨hi, fun _ _ ho => ⟨ho, fun _ => rfl⟩, fun _ => rfl, fun _ => rfl, .nil _, rfl, rfl, by simp [Spec.QParts.others]⟩
  | cons c cs ih =>
    intro s s' hi hl h
    obtain ⟨t, h1, h2⟩ := run_cons h
    have hlc := hl c (by simp)
    have hlr : ∀ d ∈ cs, Legal R K d := fun d hd => hl d (by simp [hd])
    cases c with
    | base op =>
      have h1 : Model.QSession.step s op = some t := h1
      have ht := base_inv hi hlc h1
      obtain ⟨w, parts, val, pl, tx, ot, cm, rf⟩ := ih t s' ht hlr h2
      refine ⟨w, ?_, ?_, ?_, .cons _ _ _ _ _ (Props.QSession.step_texts hi.ok hi.params hlc.1 h1) tx, ?_, ?_, ?_⟩
      · intro r hr ho
        obtain ⟨o1, p1⟩ := parts r hr ho
        obtain ⟨o2, p2⟩ := base_step hi.ok hi.params hlc.1 h1 r o1
        refine ⟨o2, fun k => ?_⟩
        obtain ⟨ps, hps⟩ := hi.pairs r hr o2
        rw [p1 k, part_eq (p2 ps hps), part_eq hps]; rfl
      · intro r; rw [foldl_same, val r, Props.QSession.step_value hi.ok hi.params hlc.1 h1 r]
      · intro r; rw [foldl_same, pl r, Props.QSession.step_place hi.ok hi.params hlc.1 h1 r]
      · rw [ot, Props.QSession.step_others hi.ok hi.params hlc.1 h1]
      · rw [cm, Props.QSession.step_comments hi.ok hi.params hlc.1 h1]
      · rw [rf, Props.QSession.step_refs hi.ok hi.params hlc.1 h1, List.filter_filter]
        apply List.filter_congr
        intro r _
        have : Spec.QParts.others (Cmd.base op :: cs) = op :: Spec.QParts.others cs := rfl
        rw [this]
        simp only [List.mem_cons, forall_eq_or_imp, ← Bool.decide_and]
        exact decide_eq_decide.2 and_comm
    | part x y r0 k0 v =>
      obtain ⟨ht, fr, oth, own⟩ := part_inv hi hlc h1
      obtain ⟨w, parts, val, pl, tx, ot, cm, rf⟩ := ih t s' ht hlr h2
      have e0 : Spec.QParts.others (Cmd.part x y r0 k0 v :: cs) = Spec.QParts.others cs := rfl
      rw [e0]
      refine ⟨w, ?_, fun r => by rw [val r, fr.value], fun r => by rw [pl r, fr.place], by rw [← fr.texts]; exact tx, by rw [ot, fr.others], by rw [cm, fr.comments], by rw [rf, fr.refs]⟩
      intro r hr ho
      obtain ⟨o1, p1⟩ := parts r hr ho
      have o2 := fr.on r o1
      refine ⟨o2, fun k => ?_⟩
      rw [p1 k]
      by_cases e : r = r0
      · subst e
        have e4 : partsSaid r (Cmd.part x y r k0 v :: cs) = (k0, v) :: partsSaid r cs := by simp [partsSaid]
        rw [e4, own o2 k, Spec.SchComp.valueAfter]
        congr 1
        by_cases e : k0 = k
        · rw [if_pos e, if_pos e]; simp
        · rw [if_neg e, if_neg e]
      · have e4 : partsSaid r (Cmd.part x y r0 k0 v :: cs) = partsSaid r cs := by simp [partsSaid, Ne.symm e]
        rw [e4, oth r e k]

theorem run_params (R : Str → Prop) (K : Str → Str → Prop) (cs : List Cmd) : ∀ (s s' : Sch), Inv R K s → (∀ c ∈ cs, Legal R K c) → Spec.QParts.KeepsAll s cs → Model.QParts.run s cs = some s' →
    ∀ q, getParam s' q = ((last (paramSaid q) (Spec.QParts.others cs)).map some).getD (getParam s q) := by
  induction cs with
  | nil =>
    intro s s' _ _ _ h q
    simp only [Model.QParts.run, Option.some.injEq] at h
    subst h; rfl
  | cons c cs ih =>
    intro s s' hi hl hk h q
    obtain ⟨t, h1, h2⟩ := run_cons h
    have hlc := hl c (by simp)
    have hlr : ∀ d ∈ cs, Legal R K d := fun d hd => hl d (by simp [hd])
    cases c with
    | base op =>
      have h1' : Model.QSession.step s op = some t := h1
      rw [ih t s' (base_inv hi hlc h1') hlr (hk.2 t h1) h2 q, (Props.QSession.step_param hi.ok hi.params hlc.1 h1').2 (hk.1 op rfl) q]
      show _ = ((last (paramSaid q) (op :: Spec.QParts.others cs)).map some).getD _
      rw [Props.QSession.last_cons]
      cases last (paramSaid q) (Spec.QParts.others cs) <;> rfl
    | part x y r0 k0 v =>
      obtain ⟨ht, fr, _⟩ := part_inv hi hlc h1
      rw [ih t s' ht hlr (hk.2 t h1) h2 q]
      have : getParam t q = getParam s q := by unfold getParam; rw [fr.texts]
      rw [this]; rfl

theorem inv_of {R : Str → Prop} {K : Str → Str → Prop} {s : Sch} (hs : SheetOk s) (hp : ParamsOk (texts s.items)) (hL : ∀ r c, R r → s.items.find? (isComp r) = some c → ∃ ps, HasPairs s r ps)
    (hA : Apart K s) : Inv R K s := ⟨hs, hp, fun r hr ⟨c, hc⟩ => hL r c hr hc, hA⟩

/-- The file at the end of a session with component parameters can be read, and shows every parameter of the components in `R` that are on the sheet with the value given last, none when it
was removed last, the one it had when no call named it; values and places are what the other calls made them. -/
theorem C109_session (R : Str → Prop) (s s' : Sch) (cs : List Cmd) (hs : SheetOk s) (hp : ParamsOk (texts s.items))
    (hL : ∀ r c, R r → s.items.find? (isComp r) = some c → ∃ ps, HasPairs s r ps) (hA : Apart (Named cs) s) (hl : ∀ c ∈ cs, Legal R (Named cs) c) (h : Model.QParts.run s cs = some s') :
    ∃ t rest, readFile (fileOf s') = some (.ok (t, rest)) ∧ SheetOk (opened t) ∧
      (∀ r, R r → some r ∈ Spec.QSession.refs (opened t) → ∀ k, getPart (opened t) r k = Spec.SchComp.valueAfter id k (getPart s r k) (partsSaid r cs)) ∧
      (∀ r, getValue (opened t) r = (Spec.QParts.others cs).foldl (Spec.QSession.valueAfter r) (getValue s r)) ∧
      ∀ r, getPlace (opened t) r = (Spec.QParts.others cs).foldl (placeAfter r) (getPlace s r) := by
  obtain ⟨hi, parts, val, pl, _⟩ := run_all R (Named cs) cs s s' (inv_of hs hp hL hA) hl h
  refine ⟨_, _, Props.QSession.file_read hi.ok, Props.QSession.opened_ok hi.ok, ?_, val, pl⟩
  intro r hr ho k
  obtain ⟨c, hc⟩ := Props.QSession.ref_iff.1 ho
  exact (parts r hr ⟨c, hc⟩).2 k

/-- … and the parameters of the sheet. -/
theorem C109_params (R : Str → Prop) (s s' : Sch) (cs : List Cmd) (hs : SheetOk s) (hp : ParamsOk (texts s.items))
    (hL : ∀ r c, R r → s.items.find? (isComp r) = some c → ∃ ps, HasPairs s r ps) (hA : Apart (Named cs) s) (hl : ∀ c ∈ cs, Legal R (Named cs) c) (hk : Spec.QParts.KeepsAll s cs)
    (h : Model.QParts.run s cs = some s') :
    ∃ t rest, readFile (fileOf s') = some (.ok (t, rest)) ∧ ParamsOk (texts t.items) ∧
      ∀ q, getParam (opened t) q = ((last (paramSaid q) (Spec.QParts.others cs)).map some).getD (getParam s q) := by
  obtain ⟨hi, _⟩ := run_all R (Named cs) cs s s' (inv_of hs hp hL hA) hl h
  exact ⟨_, _, Props.QSession.file_read hi.ok, hi.params, fun q => run_params R (Named cs) cs s s' (inv_of hs hp hL hA) hl hk h q⟩

/-- … and the rest of the sheet: the texts are what the other calls make of them, comments, wires and drawings stay, components go only when they are removed. -/
theorem C109_rest (R : Str → Prop) (s s' : Sch) (cs : List Cmd) (hs : SheetOk s) (hp : ParamsOk (texts s.items))
    (hL : ∀ r c, R r → s.items.find? (isComp r) = some c → ∃ ps, HasPairs s r ps) (hA : Apart (Named cs) s) (hl : ∀ c ∈ cs, Legal R (Named cs) c) (h : Model.QParts.run s cs = some s') :
    ∃ t rest, readFile (fileOf s') = some (.ok (t, rest)) ∧ TextsRun (Spec.QParts.others cs) (texts s.items) (texts t.items) ∧ Spec.QSession.others (opened t) = Spec.QSession.others s ∧
      Spec.QSession.comments (opened t) = Spec.QSession.comments s ∧
      Spec.QSession.refs (opened t) = (Spec.QSession.refs s).filter (fun r => decide (∀ op ∈ Spec.QParts.others cs, ¬ ∃ q, r = some q ∧ Removes q op)) := by
  obtain ⟨hi, _, _, _, tx, ot, cm, rf⟩ := run_all R (Named cs) cs s s' (inv_of hs hp hL hA) hl h
  exact ⟨_, _, Props.QSession.file_read hi.ok, tx, ot, cm, rf⟩

/-- A legal setting on a component that is on the sheet is carried out; it changes one component, and in that one neither its reference, value and place nor a tag that is no text. -/
theorem C109_accepted (s : Sch) (x y : Int) (r k val : Str) (v : Option Str) (ps : Pairs) (hs : SheetOk s) (hps : HasPairs s r ps) (hval : getValue s r = some val) (hk : Name k) (hx : NotHex k)
    (hv : ∀ w, v = some w → Value w ∧ Plain w) (hn : ¬ k <:+: val) :
    ∃ s' a c c' b, Model.QParts.step s (.part x y r k v) = some s' ∧ s.items = a ++ c :: b ∧ s' = { s with items := a ++ c' :: b } ∧ textAt c 0 = some r ∧ textAt c' 0 = some r ∧
      getValue s' r = some val ∧ c'.tokens = c.tokens ∧ c'.items.map (fun z => z.items.filter (fun t => !isText t)) = c.items.map (fun z => z.items.filter (fun t => !isText t)) := by
  obtain ⟨s', c, c', ps', h1, he, _, h3, _, h5, h6, _⟩ := part_done x y hs hps hval hk hx hv hn
  obtain ⟨a, b, e, e', _⟩ := he.items
  have hr := (Props.QSession.comp_of he.was).2
  exact ⟨s', a, c, c', b, h1, e, e', hr, he.ref.trans hr, h3, h5, h6⟩

/-! #### an example, and limits -/

open Props.QSession (exSheet exSheet_ok exSheet_params exComp plain_dec)

/-- Parameters are set and one is removed; the file is saved and opened in between, the resistor gets a value and a place. -/
def exCmds : List Cmd :=
  [.part 0 0 "R1".toList "tol".toList (some "1".toList), .base .reopen, .part 0 0 "R1".toList "tc".toList (some "{a b}".toList), .base (.value "R1".toList "4.7k".toList),
   .part 0 0 "R1".toList "tol".toList (some "5m".toList), .base (.move "R1".toList 5 6 90 false), .part 0 0 "R1".toList "tc".toList none]

theorem ex_find : exSheet.items.find? (isComp "R1".toList) = some exComp := by
  have : isComp "R1".toList exComp = true := by decide +kernel
  unfold exSheet
  simp only [List.find?_cons, this]

theorem ex_pairs : HasPairs exSheet "R1".toList [] := by
  refine ⟨⟨"R1".toList, "1k".toList, [], [], by decide +kernel, .nil, rfl, by simp⟩, by simp [names], ?_⟩
  intro c hc y hy
  rw [ex_find] at hc
  obtain rfl := Option.some.inj hc
  refine ⟨y.items, [], by simp, ?_, by simp⟩
  simp only [exComp, Tag.items, List.mem_singleton] at hy
  subst hy
  decide +kernel

theorem ex_keys (r k : Str) (h : Named exCmds r k) : r = "R1".toList ∧ (k = "tol".toList ∨ k = "tc".toList) := by
  obtain ⟨x, y, v, h⟩ := h
  simp only [exCmds, List.mem_cons, List.not_mem_nil, or_false, Cmd.part.injEq, reduceCtorEq, false_or] at h
  rcases h with ⟨_, _, h1, h2, _⟩ | ⟨_, _, h1, h2, _⟩ | ⟨_, _, h1, h2, _⟩ | ⟨_, _, h1, h2, _⟩
  · exact ⟨h1, .inl h2⟩
  · exact ⟨h1, .inr h2⟩
  · exact ⟨h1, .inl h2⟩
  · exact ⟨h1, .inr h2⟩

theorem ex_apart : Apart (Named exCmds) exSheet := by
  intro r k w hk hw
  obtain ⟨rfl, hk'⟩ := ex_keys r k hk
  have : getValue exSheet "R1".toList = some "1k".toList := by decide +kernel
  rw [this] at hw
  obtain rfl := Option.some.inj hw
  rcases hk' with e | e <;> rw [e] <;> decide

theorem ex_legal : ∀ c ∈ exCmds, Legal (· = "R1".toList) (Named exCmds) c := by
  have n1 : Name "tol".toList := by unfold Name Spec.ParamLine.NameChar; decide
  have n2 : Name "tc".toList := by unfold Name Spec.ParamLine.NameChar; decide
  have num : ∀ n u : Str, n ≠ [] → n.all Char.isDigit = true → u.all Char.isAlpha = true → Value (n ++ u) := by
    intro n u h0 h1 h2
    exact .inr (.inr ⟨n, u, rfl, h0, fun c hc => .inl (List.all_eq_true.1 h1 c hc), fun c hc => .inl (List.all_eq_true.1 h2 c hc)⟩)
  intro c hc
  have hc' := hc
  simp only [exCmds, List.mem_cons, List.not_mem_nil, or_false] at hc
  rcases hc with rfl | rfl | rfl | rfl | rfl | rfl | rfl
  · exact ⟨rfl, ⟨_, _, _, hc'⟩, n1, by unfold NotHex; decide, fun w hw => by obtain rfl := Option.some.inj hw; exact ⟨num "1".toList [] (by decide) (by decide) (by decide), plain_dec _ (by decide) (by decide +kernel)⟩⟩
  · exact ⟨trivial, fun _ _ h => by cases h⟩
  · exact ⟨rfl, ⟨_, _, _, hc'⟩, n2, by unfold NotHex; decide, fun w hw => by obtain rfl := Option.some.inj hw; exact ⟨.inl ⟨"a b".toList, rfl, by decide⟩, plain_dec _ (by decide) (by decide +kernel)⟩⟩
  · refine ⟨⟨plain_dec _ (by decide) (by decide +kernel), by decide⟩, fun r w h k hk => ?_⟩
    simp only [Model.QSession.Op.value.injEq] at h
    obtain ⟨rfl, rfl⟩ := h
    rcases (ex_keys _ k hk).2 with e | e <;> rw [e] <;> decide
  · exact ⟨rfl, ⟨_, _, _, hc'⟩, n1, by unfold NotHex; decide, fun w hw => by obtain rfl := Option.some.inj hw; exact ⟨num "5".toList "m".toList (by decide) (by decide) (by decide), plain_dec _ (by decide) (by decide +kernel)⟩⟩
  · exact ⟨trivial, fun _ _ h => by cases h⟩
  · exact ⟨rfl, ⟨_, _, _, hc'⟩, n2, by unfold NotHex; decide, fun w hw => by cases hw⟩

theorem ex_run : ((Model.QParts.run exSheet exCmds).bind (fun s => symbolTexts s "R1".toList)) = some ["R1".toList, "4.7k".toList, "tol=5m".toList] := by decide +kernel

/-- The theorem applies. -/
theorem ex_file (s' : Sch) (h : Model.QParts.run exSheet exCmds = some s') : ∃ t rest, readFile (fileOf s') = some (.ok (t, rest)) ∧
    getValue (opened t) "R1".toList = some "4.7k".toList ∧ getPlace (opened t) "R1".toList = some (some (.tuple [5, 6]), some (.int 2)) ∧
    getPart (opened t) "R1".toList "tol".toList = some "5m".toList ∧ getPart (opened t) "R1".toList "tc".toList = none := by
  obtain ⟨t, rest, h1, _, h3, h4, h5⟩ := C109_session (· = "R1".toList) exSheet s' exCmds exSheet_ok exSheet_params (fun r c hr _ => ⟨[], by rw [show r = _ from hr]; exact ex_pairs⟩) ex_apart ex_legal h
  have hpl : getPlace (opened t) "R1".toList = some (some (.tuple [5, 6]), some (.int 2)) := by rw [h5]; decide +kernel
  have ho : some "R1".toList ∈ Spec.QSession.refs (opened t) := by
    rw [Props.QSession.ref_iff]
    unfold getPlace at hpl
    cases hf : (opened t).items.find? (isComp "R1".toList) with
    | none => rw [hf] at hpl; cases hpl
    | some c => exact ⟨c, rfl⟩
  refine ⟨t, rest, h1, ?_, hpl, ?_, ?_⟩
  · rw [h4]; decide +kernel
  · rw [h3 _ rfl ho]; decide +kernel
  · rw [h3 _ rfl ho]; decide +kernel

/-- **C109, limit.** A parameter whose name starts like a number of QSPICE can be added, but the second setting writes its text without quotation marks: it is no text any more. -/
theorem C109_hex_name :
    ((Model.QParts.run exSheet [.part 0 0 "R1".toList "0x1".toList (some "1".toList)]).bind (fun s => getPart s "R1".toList "0x1".toList)) = some "1".toList ∧
    ((Model.QParts.run exSheet [.part 0 0 "R1".toList "0x1".toList (some "1".toList), .part 0 0 "R1".toList "0x1".toList (some "2".toList)]).map (fun s => getPart s "R1".toList "0x1".toList)) = some none ∧
    ((Model.QParts.run exSheet [.part 0 0 "R1".toList "0x1".toList (some "1".toList), .part 0 0 "R1".toList "0x1".toList (some "2".toList)]).map (fun s => Model.PyStr.contains "-1 0x1=2»".toList (fileOf s))) = some true := by
  refine ⟨?_, ?_, ?_⟩ <;> decide +kernel

/-- **C109, limit.** A parameter that stands in the value is changed there, and is not shown as a parameter. -/
theorem C109_in_value :
    ((Model.QParts.run exSheet [.base (.value "R1".toList "x=1".toList), .part 0 0 "R1".toList "x".toList (some "2".toList)]).map (fun s => (getValue s "R1".toList, getPart s "R1".toList "x".toList))) =
      some (some "x=2".toList, none) := by decide +kernel

end Props.QParts
