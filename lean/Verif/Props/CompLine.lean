import Verif.Lemmas.CompWrite

/-! C63: reading and rewriting the line of a component. -/
namespace Props.CompLine
open Model.Regex Lemmas.Regex Model.CompLine Lemmas.CompLine
open Model.PyStr (isSpace strip rstrip upper)
open Model.Params (PV parseParams showParams)
open Props.Params (valueOf NameOk texts)
open Spec.ParamList (Item Word Blank lastValues)
open Spec.CompLine (Line Shape ItemsOk)

variable (w : WordClass) (numeric : Str → Bool) (shown : PV → Str)

theorem nodes_ok {l : Line} {sh : Shape} (h : l.Ok w.word sh) : NodesOk w l.nodes := by
  intro n hn
  obtain ⟨⟨h1, h2⟩, h3, h4⟩ := h.nodes n hn
  refine ⟨⟨h1, h2⟩, h3, fun c hc => ?_⟩
  have := h4 c hc
  simp only [List.mem_cons, List.not_mem_nil, or_false] at this
  unfold nodeChar
  rcases this with g | g | g | g | g | g | g | g <;> simp [g]

theorem items_empty {l : Line} {sh : Shape} (h : l.Ok w.word sh) : l.itemsText = [] ↔ l.items = [] := by
  constructor
  · intro e
    cases hi : l.items with
    | nil => rfl
    | cons i is =>
      have h1 := (h.items i (by simp [hi])).1.1
      simp [Line.itemsText, hi, h1] at e
  · intro e; simp [Line.itemsText, e]

theorem parse_line {l : Line} {sh : Shape} (h : l.Ok w.word sh) (hn : ∀ i ∈ l.items, NameOk numeric i.2.name) (x : St) (start : Nat) (b : Str) (hb : ∀ c ∈ b, isSpace c = true)
    (hp : ParamsAt x start l.itemsText b) :
    (∀ p t, x.get .params = some (p, t) → parseParams numeric shown t = some (dictOf (l.items.map Prod.snd)) ∧ (t = [] ↔ l.items = [])) ∧ (x.get .params = none → l.items = []) := by
  rcases hp with ⟨hg, hbe⟩ | ⟨hP, _, hg⟩ | ⟨g, Q, hP, hgn, hgs, ⟨y, q, hQ, hy⟩, hg⟩
  · refine ⟨?_, fun e => by rw [hg] at e; simp at e⟩
    intro p t hpt
    rw [hg] at hpt
    simp at hpt
    rw [← hpt.2]
    by_cases hi : l.items = []
    · have e := (items_empty w h).2 hi
      rw [e, hbe e, hi]; exact ⟨rfl, by simp⟩
    · refine ⟨parse_params w numeric shown l.items hi h.items hn b hb, ?_⟩
      have := mt (items_empty w h).1 hi
      simp [this, hi]
  · exact ⟨fun p t hpt => by rw [hg] at hpt; simp at hpt, fun _ => (items_empty w h).1 hP⟩
  · refine ⟨?_, fun e => by rw [hg] at e; simp at e⟩
    intro p t hpt
    rw [hg] at hpt
    simp at hpt
    rw [← hpt.2]
    have hi : l.items ≠ [] := by
      intro e
      have := (items_empty w h).2 e
      rw [hP] at this
      exact hgn (List.append_eq_nil_iff.1 this).1
    refine ⟨?_, by simp [hQ, hi]⟩
    obtain ⟨i, is, ei⟩ := List.exists_cons_of_ne_nil hi
    have hio := h.items i (by simp [ei])
    have e0 : l.itemsText = i.1 ++ (i.2.text ++ itemsText is) := by simp [Line.itemsText, ei, itemsText]
    obtain ⟨z, m, ez⟩ := List.exists_cons_of_ne_nil (Props.Params.word_ne_nil _ hio.2.1.name)
    have hz : isSpace z = false := (w.not z (hio.2.2.1 z (by rw [ez]; simp))).1
    have e1 : i.2.text = z :: (m ++ (i.2.b1 ++ '=' :: (i.2.b2 ++ valuesText i.2))) := by rw [item_text, ez]; rfl
    have hsame : g = i.1 := by
      refine (blanks_visible (c := y) (r := q) (c' := z) (r' := (m ++ (i.2.b1 ++ '=' :: (i.2.b2 ++ valuesText i.2))) ++ itemsText is) ?_ hgs hio.1.2 hy hz).1
      rw [← hQ, ← hP, e0, e1]; simp
    have hQ2 : Q = i.2.text ++ itemsText is := by
      rw [hP, hsame] at e0
      exact List.append_cancel_left e0
    rw [hQ2, ei]
    exact parse_tail w numeric shown i is (by rw [← ei]; exact h.items) (by rw [← ei]; exact hn) b hb

/-- What a line is read as. -/
def read (l : Line) : Attrs :=
  { ref := l.reference, ports := l.nodes.map Prod.snd, value := some l.value, params := if l.items = [] then none else some (dictOf (l.items.map Prod.snd)) }

theorem reset_line {l : Line} {sh : Shape} (h : l.Ok w.word sh) (hn : ∀ i ∈ l.items, NameOk numeric i.2.name) :
    reset w numeric shown (l.text ++ ['\n']) = .ok (read l) := by
  obtain ⟨r, x, b, rest, h1, _, h2, hf, h4, h6⟩ := exec_line w l sh h [' '] (by decide)
  have e1 : l.text ++ ['\n'] = l.letter :: ((if l.marked then ['§'] else []) ++ l.name ++ l.nodesText ++ l.gap ++ l.pre ++ l.value ++ l.itemsText ++ l.blanks ++ l.comment ++ ['\n']) := by
    simp [Line.text, Line.designator]
  have e2 : clean false (l.text ++ ['\n']) = l.text ++ [' '] := clean_line _ h.oneLine
  unfold reset
  split
  · rename_i heq; rw [e1] at heq; simp at heq
  · rename_i c t heq
    have hc : c = l.letter := by rw [e1] at heq; simp at heq; exact heq.1.symm
    rw [hc, h1]
    simp only
    rw [e2, h2]
    simp only
    rw [if_neg hf.pos]
    unfold attrsOf
    have hp : paramsOf numeric shown x = .ok (if l.items = [] then none else some (dictOf (l.items.map Prod.snd))) := by
      obtain ⟨hpl, hpn⟩ := parse_line w numeric shown h hn x _ b h4 hf.params
      unfold paramsOf
      cases hg : x.get .params with
      | none => simp only [if_pos (hpn hg)]
      | some pt =>
        obtain ⟨p, t⟩ := pt
        obtain ⟨k1, k2⟩ := hpl p t hg
        cases t with
        | nil => simp only [if_pos (k2.1 rfl)]
        | cons y t =>
          have hi : ¬ l.items = [] := fun e => by have := k2.2 e; simp at this
          simp only [k1, if_neg hi]
    rw [hp]
    simp only [hf.designator, hf.nodes, hf.value, Option.map_some, Option.getD_some]
    unfold read
    rw [undress_line w h, show l.nodesText = nodesText l.nodes from rfl, words_nodes w l.nodes (nodes_ok w h),
      strip_ends (value_ends (words_visible w h) h.value)]

theorem lookup_dictOf (l : List Item) (k : Str) : ((dictOf l).lookup k).map texts = lastValues k l := by
  have := Props.Params.lookup_foldl_put k (l.map (fun it => (it, ([] : Str)))) []
  rw [List.foldl_map] at this
  unfold dictOf
  rw [this]
  simp only [List.map_map]
  have e : (Prod.fst ∘ fun it : Item => (it, ([] : Str))) = id := rfl
  rw [e, List.map_id]
  unfold lastValues
  cases l.reverse.find? (fun it => decide (it.name = k)) with
  | none => rfl
  | some it => simp [Props.Params.texts_valueOf]

/-- C63: a line of a component is read as what it says: its designator (without LTspice's mark, or in capitals), its nodes in order, its
value as written, and its parameters, each name with the values given last for it; whatever blanks separate them, and whatever comment
follows. -/
theorem C63_read (l : Line) (sh : Shape) (h : l.Ok w.word sh) (hn : ∀ i ∈ l.items, NameOk numeric i.2.name) :
    ∃ a, reset w numeric shown (l.text ++ ['\n']) = .ok a ∧ a.ref = l.reference ∧ a.ports = l.nodes.map Prod.snd ∧ a.value = some l.value ∧
      (a.params = none ↔ l.items = []) ∧ ∀ k, (((a.params.getD []).lookup k).map texts) = lastValues k (l.items.map Prod.snd) := by
  refine ⟨read l, reset_line w numeric shown h hn, rfl, rfl, rfl, ?_, ?_⟩
  · simp only [read]
    constructor
    · intro e; by_contra hi; rw [if_neg hi] at e; simp at e
    · intro e; rw [if_pos e]
  · intro k
    simp only [read]
    by_cases hi : l.items = []
    · rw [if_pos hi, hi]; rfl
    · rw [if_neg hi]; exact lookup_dictOf _ k

theorem rewrite_eq {l : Line} {sh : Shape} (h : l.Ok w.word sh) (hn : ∀ i ∈ l.items, NameOk numeric i.2.name) (hs : l.Spaced) (a : Attrs) (v' : Str)
    (ha1 : a.ref = l.reference) (ha2 : a.ports = l.nodes.map Prod.snd) (ha3 : a.value = some v')
    (hv' : v' ≠ [] ∧ (∀ c, v'.head? = some c → isSpace c = false) ∧ (∀ c, v'.getLast? = some c → isSpace c = false)) (hsemi : sh = .inst → ';' ∉ v') :
    (differ (a.params.getD []) (dictOf (l.items.map Prod.snd)) = false →
      rewrite w numeric shown (l.text ++ ['\n']) a = .ok (if l.nodesText = nodesText (single l.nodes) ∧ l.value = v' then l.text ++ ['\n'] else
        l.designator ++ nodesText (single l.nodes) ++ (l.gap ++ l.pre) ++ v' ++ l.itemsText ++ rstrip (l.blanks ++ l.comment ++ [' ']) ++ ['\n'])) ∧
    (differ (a.params.getD []) (dictOf (l.items.map Prod.snd)) = true → ∀ S, showParams (a.params.getD []) = S → 1 < S.length → (∀ c, S.head? = some c → isSpace c = false) →
      (∀ c, S.getLast? = some c → isSpace c = false) → ∃ B1 E, rewrite w numeric shown (l.text ++ ['\n']) a =
        .ok (l.designator ++ nodesText (single l.nodes) ++ (l.gap ++ l.pre) ++ v' ++ B1 ++ S ++ E ++ ['\n']) ∧ B1 ≠ [] ∧ (∀ c ∈ B1, c = ' ') ∧ EndsIn l E) := by
  obtain ⟨r, x, b, rest, h1, hnm, h2, hf, h4, h6⟩ := exec_line w l sh h ['\n'] (by decide)
  obtain ⟨rr, hr⟩ := reference_head w h
  obtain ⟨hpl, hpn⟩ := parse_line w numeric shown h hn x _ b h4 hf.params
  have e2 : clean false (l.text ++ ['\n']) = l.designator ++ l.nodesText ++ (l.gap ++ l.pre) ++ l.value ++ l.itemsText ++ (l.blanks ++ l.comment ++ [' ']) := by
    rw [clean_line _ h.oneLine]; simp [Line.text]
  have hv := value_ends (words_visible w h) h.value
  obtain ⟨T1, t1, t2, t3⟩ := stage_nodes w h hs a ha2 x hf.nodes l.value hv
  obtain ⟨T2, t4, t5, t7, t6⟩ := stage_value w h hs a v' ha3 x l.value (nodesText (single l.nodes)) hf.value hv' T1 t1 (decide (l.nodesText ≠ nodesText (single l.nodes)))
  obtain ⟨p1, p2⟩ := stage_params w h hs numeric shown a _ x l.value (nodesText (single l.nodes)) v' b rest hf.params hf.none_inst h4 h6
    (fun p t e => (hpl p t e).1) (fun e => by rw [hpn e]; rfl) (by
      intro hi hc
      rcases List.mem_append.1 hc with g | g
      · simp only [nodesText, single, List.mem_flatMap, List.mem_map] at g
        obtain ⟨_, ⟨n, hn, rfl⟩, g⟩ := g
        simp only [List.singleton_append, List.mem_cons] at g
        rcases g with g | g
        · revert g; decide
        · have := (nodes_ok w h n hn).2.2 _ g
          rw [(node_eq w).2] at this; simp at this
      · exact hsemi hi g) hv' T2 t4
    (decide (l.nodesText ≠ nodesText (single l.nodes)) || decide (l.value ≠ v'))
  have href : putRef a x ⟨clean false (l.text ++ ['\n']), 0, false⟩ = ⟨clean false (l.text ++ ['\n']), 0, false⟩ := by
    unfold putRef
    rw [hf.designator]
    simp only
    rw [if_pos (by rw [ha1, undress_line w h])]
  constructor
  · intro hd
    unfold rewrite
    rw [ha1, hr]
    simp only
    rw [h1]
    simp only
    rw [h2]
    simp only
    rw [if_pos hnm, href, e2, t3, t6, p1 hd]
    simp only [Except.ok.injEq]
    by_cases e : l.nodesText = nodesText (single l.nodes) ∧ l.value = v'
    · rw [decide_eq_false (not_not.2 e.1), decide_eq_false (not_not.2 e.2), if_pos e]; rfl
    · have hdn : (decide (l.nodesText ≠ nodesText (single l.nodes)) || decide (l.value ≠ v')) = true := by
        rw [Bool.or_eq_true, decide_eq_true_eq, decide_eq_true_eq]
        exact not_and_or.1 e
      rw [if_neg e, if_pos hdn]
      have : T2 = rstrip (l.blanks ++ l.comment ++ [' ']) := by
        by_cases ev : l.value = v'
        · rw [t5 ev]; exact t2 (fun g => e ⟨g, ev⟩)
        · rw [t7 ev]; exact tail_rstrip t1
      rw [this]
  · intro hd S hS hSn hSh hSl
    obtain ⟨off, B1, E, g1, g2⟩ := p2 hd S hS hSn hSh hSl
    refine ⟨B1, E, ?_, g2⟩
    unfold rewrite
    rw [ha1, hr]
    simp only
    rw [h1]
    simp only
    rw [h2]
    simp only
    rw [if_pos hnm, href, e2, t3, t6, g1]
    simp

theorem tail_eq {l : Line} {sh : Shape} (h : l.Ok w.word sh) : rstrip (l.blanks ++ l.comment ++ [' ']) = if l.comment = [] then [] else l.blanks ++ rstrip l.comment := by
  rcases tail_form w h (.inl rfl : Tail l (l.blanks ++ l.comment ++ [' '])) with ⟨hc, g⟩ | ⟨hc, _, cm, g1, g2, g3⟩
  · rw [if_pos hc]
    refine rstrip_blank _ ?_
    intro c hcc
    rcases g c hcc with q | q
    · exact h.blanks c q
    · subst q; decide
  · rw [if_neg hc, g1, rstrip_semi _ _ g2, g3]

theorem rstrip_mem {a : Str} {c : Char} (h : c ∈ rstrip a) : c ∈ a := by
  obtain ⟨s, e, _⟩ := Props.SpiceParam.rstrip_prefix a
  rw [e]; simp [h]

/-- The line after the value and the parameters were replaced: one space before each node, no blanks at the end. -/
def renewed (l : Line) (v : Str) (items : List (Str × Item)) (B cm : Str) : Line :=
  { l with nodes := single l.nodes, value := v, items, blanks := if l.comment = [] then [] else B, comment := cm }

/-- The comment is kept, up to blanks at its end. -/
def SameComment (l : Line) (cm : Str) : Prop :=
  (l.comment = [] ∧ cm = []) ∨ (l.comment ≠ [] ∧ cm.head? = some ';' ∧ rstrip cm = rstrip l.comment ∧ ∀ c ∈ cm, c ∈ l.blanks ++ l.comment ++ [' '])

theorem same_stripped {l : Line} {sh : Shape} (h : l.Ok w.word sh) (hs : l.Spaced) : SameComment l (rstrip l.comment) := by
  by_cases hc : l.comment = []
  · left; rw [hc]; exact ⟨rfl, rfl⟩
  · obtain ⟨c1, c2⟩ := comment_semi w h hs hc
    exact .inr ⟨hc, c1, rstrip_rstrip _, fun c hcc => by simp [c2 c hcc]⟩

theorem same_rstrip {l : Line} {cm : Str} (h : SameComment l cm) : rstrip cm = rstrip l.comment := by
  rcases h with ⟨h1, h2⟩ | ⟨_, _, h, _⟩
  · rw [h1, h2]
  · exact h

theorem value_sub {A A' v : Str} {sh : Shape} (sub : ∀ q : Char, isSpace q = false → q ∉ A → q ∉ A') (hv : Spec.CompLine.ValueOk w.word A sh v) :
    Spec.CompLine.ValueOk w.word A' sh v := by
  cases hv with
  | plain _ g1 g2 => exact .plain _ g1 g2
  | braces body g => exact .braces body (sub _ (by decide) g)
  | double body g1 g2 => exact .double body g1 (sub _ (by decide) g2)
  | single body g1 g2 => exact .single body g1 (sub _ (by decide) g2)
  | model _ _ _ g1 g2 => exact .model _ _ _ g1 g2
  | inst _ g1 g2 => exact .inst _ g1 g2
  | source _ g1 g2 g3 g4 => exact .source _ g1 g2 g3 g4

theorem renewed_ok {l : Line} {sh : Shape} (h : l.Ok w.word sh) (v : Str) (items : List (Str × Item)) (hi : ItemsOk w.word items)
    (hv : Spec.CompLine.ValueOk w.word (items.flatMap (fun i => i.1 ++ i.2.text) ++ l.comment) sh v) (B cm : Str) (hB : B ≠ []) (hB2 : ∀ c ∈ B, isSpace c = true) (hcm : SameComment l cm)
    (h1 : ∀ c ∈ v ++ items.flatMap (fun i => i.1 ++ i.2.text) ++ B, c ≠ '\n' ∧ c ≠ '\r') : (renewed l v items B cm).Ok w.word sh := by
  have hlen : (single l.nodes).length = l.nodes.length := by simp [single]
  refine ⟨h.shape, h.name, ?_, ?_, h.gap, h.pre, ?_, hi, ?_, ?_, ?_⟩
  · intro n hn
    simp only [renewed, single, List.mem_map] at hn
    obtain ⟨m, hm, rfl⟩ := hn
    exact ⟨⟨by simp, by intro c hc; simp at hc; subst hc; decide⟩, (h.nodes m hm).2⟩
  · show sh.allows (single l.nodes).length
    rw [hlen]; exact h.count
  · show Spec.CompLine.ValueOk w.word (items.flatMap (fun i => i.1 ++ i.2.text) ++ cm) sh v
    have sub : ∀ q : Char, isSpace q = false → q ∉ items.flatMap (fun i => i.1 ++ i.2.text) ++ l.comment → q ∉ items.flatMap (fun i => i.1 ++ i.2.text) ++ cm := by
      intro q hq g1 g2
      rw [List.mem_append] at g1 g2
      rcases g2 with g2 | g2
      · exact g1 (.inl g2)
      · rcases hcm with ⟨_, e⟩ | ⟨_, _, _, e⟩
        · rw [e] at g2; simp at g2
        · have := e q g2
          simp only [List.mem_append, List.mem_singleton] at this
          rcases this with (g | g) | g
          · have := h.blanks q g; rw [hq] at this; simp at this
          · exact g1 (.inr g)
          · rw [g] at hq; revert hq; decide
    exact value_sub w sub hv
  · show Blank (if l.comment = [] then [] else B)
    split
    · intro c hc; simp at hc
    · exact hB2
  · show cm = [] ∨ ((if l.comment = [] then [] else B) ≠ [] ∧ cm.head? = some ';')
    rcases hcm with ⟨_, e⟩ | ⟨e1, e2, _⟩
    · exact .inl e
    · exact .inr ⟨by rw [if_neg e1]; exact hB, e2⟩
  · intro c hc
    have old : ∀ x, x ∈ l.text → x ≠ '\n' ∧ x ≠ '\r' := h.oneLine
    simp only [Line.text, renewed, Line.designator, Line.nodesText, Line.itemsText, List.mem_append, or_assoc] at hc
    rcases hc with g | g | g | g | g | g | g | g
    · exact old c (by simp only [Line.text, List.mem_append, or_assoc]; exact .inl g)
    · simp only [single, List.mem_flatMap, List.mem_map] at g
      obtain ⟨_, ⟨m, hm, rfl⟩, g⟩ := g
      simp only [List.mem_append, List.mem_singleton] at g
      rcases g with g | g
      · subst g; decide
      · refine old c ?_
        simp only [Line.text, List.mem_append, or_assoc]
        refine .inr (.inl ?_)
        simp only [Line.nodesText, List.mem_flatMap]
        exact ⟨m, hm, by simp [g]⟩
    · exact old c (by simp only [Line.text, List.mem_append]; tauto)
    · exact old c (by simp only [Line.text, List.mem_append]; tauto)
    · exact h1 c (by simp only [List.mem_append]; tauto)
    · exact h1 c (by simp only [List.mem_append]; tauto)
    · split at g
      · simp at g
      · exact h1 c (by simp only [List.mem_append]; tauto)
    · rcases hcm with ⟨_, e⟩ | ⟨_, _, _, e⟩
      · rw [e] at g; simp at g
      · have := e c g
        simp only [List.mem_append, List.mem_singleton] at this
        rcases this with (g | g) | g
        · exact old c (by simp only [Line.text, List.mem_append]; exact .inl (.inr g))
        · exact old c (by simp only [Line.text, List.mem_append]; exact .inr g)
        · subst g; decide

/-- The line that was written: what it keeps of `l`, its value and its parameters. -/
structure Written (word : Char → Bool) (sh : Shape) (l l' : Line) (v : Str) (values : Str → Option (List Str)) : Prop where
  ok : l'.Ok word sh
  designator : l'.designator = l.designator
  nodes : l'.nodes.map Prod.snd = l.nodes.map Prod.snd
  value : l'.value = v
  items : ∀ k, lastValues k (l'.items.map Prod.snd) = values k
  comment : rstrip l'.comment = rstrip l.comment

theorem put_keys (d : List (Str × PV)) (k : Str) (v : PV) (h : (d.map Prod.fst).Nodup) : ((Model.Params.put d k v).map Prod.fst).Nodup := by
  have key : ∀ d : List (Str × PV), (Model.Params.put d k v).map Prod.fst = if k ∈ d.map Prod.fst then d.map Prod.fst else d.map Prod.fst ++ [k] := by
    intro d
    induction d with
    | nil => rfl
    | cons x d ih =>
      obtain ⟨a, b⟩ := x
      unfold Model.Params.put
      by_cases e : a = k
      · rw [if_pos e]; simp [e]
      · rw [if_neg e, List.map_cons, ih]
        have e' : ¬ k = a := fun g => e g.symm
        simp only [List.map_cons, List.mem_cons, e', false_or]
        split <;> simp
  rw [key]
  split
  · exact h
  · rename_i hk
    rw [List.nodup_append]
    refine ⟨h, by simp, ?_⟩
    intro a ha b hb
    simp at hb; subst hb
    rintro rfl; exact hk ha

theorem dict_keys (l : List Item) : ((dictOf l).map Prod.fst).Nodup := by
  have key : ∀ (l : List Item) (d : List (Str × PV)), (d.map Prod.fst).Nodup → ((l.foldl (fun d it => Model.Params.put d it.name (valueOf it)) d).map Prod.fst).Nodup := by
    intro l
    induction l with
    | nil => intro d h; exact h
    | cons x l ih => intro d h; exact ih _ (put_keys d _ _ h)
  exact key l [] (by simp)

theorem lookup_nodup (d : List (Str × PV)) (h : (d.map Prod.fst).Nodup) (kv : Str × PV) (hk : kv ∈ d) : d.lookup kv.1 = some kv.2 := by
  induction d with
  | nil => simp at hk
  | cons x d ih =>
    rw [List.lookup_cons]
    simp only [List.map_cons, List.nodup_cons] at h
    rcases List.mem_cons.1 hk with rfl | hk
    · simp
    · have : (kv.1 == x.1) = false := by
        rw [beq_eq_false_iff_ne]
        intro e
        exact h.1 (by rw [← e]; exact List.mem_map_of_mem hk)
      rw [this]; exact ih h.2 hk

theorem lookup_none (d : List (Str × PV)) (k : Str) : (d.lookup k).isNone = true ↔ k ∉ d.map Prod.fst := by
  induction d with
  | nil => simp
  | cons x d ih =>
    rw [List.lookup_cons]
    by_cases e : (k == x.1) = true
    · rw [e]; simp only [beq_iff_eq] at e; simp [e]
    · simp only [Bool.not_eq_true] at e
      rw [e]
      simp only [beq_eq_false_iff_ne] at e
      simp only [List.map_cons, List.mem_cons, e, false_or]
      exact ih

/-- Two dictionaries that do not differ give the same values. -/
theorem differ_false (d d' : List (Str × PV)) (h : (d.map Prod.fst).Nodup) (h' : (d'.map Prod.fst).Nodup) : differ d d' = false ↔ ∀ k, d.lookup k = d'.lookup k := by
  constructor
  · intro e k
    unfold differ at e
    rw [Bool.or_eq_false_iff, List.any_eq_false, List.any_eq_false] at e
    cases hq : d.lookup k with
    | none =>
      cases hp : d'.lookup k with
      | none => rfl
      | some v =>
        exfalso
        have hm : k ∈ d'.map Prod.fst := by
          by_contra hn
          have := (lookup_none d' k).2 hn
          rw [hp] at this; simp at this
        obtain ⟨kv, g1, rfl⟩ := List.mem_map.1 hm
        have := e.2 kv g1
        rw [hq] at this; simp at this
    | some v =>
      have hm : k ∈ d.map Prod.fst := by
        by_contra hn
        have := (lookup_none d k).2 hn
        rw [hq] at this; simp at this
      obtain ⟨kv, g1, rfl⟩ := List.mem_map.1 hm
      have := e.1 kv g1
      rw [lookup_nodup d h kv g1] at hq
      simp at hq
      simp at this
      rw [this, hq]
  · intro e
    unfold differ
    rw [Bool.or_eq_false_iff, List.any_eq_false, List.any_eq_false]
    constructor
    · intro kv hkv
      simp [← e, lookup_nodup d h kv hkv]
    · intro kv hkv
      simp [e, lookup_nodup d' h' kv hkv]

theorem read_params (l : Line) : (read l).params.getD [] = dictOf (l.items.map Prod.snd) := by
  unfold read
  by_cases hi : l.items = []
  · simp [hi]; rfl
  · simp [hi]

theorem renewed_text {l : Line} (v : Str) (items : List (Str × Item)) (B cm : Str) (hcm : SameComment l cm) : (renewed l v items B cm).text =
    l.designator ++ nodesText (single l.nodes) ++ (l.gap ++ l.pre) ++ v ++ items.flatMap (fun i => i.1 ++ i.2.text) ++ (if l.comment = [] then [] else B ++ cm) := by
  have : (if l.comment = [] then ([] : Str) else B) ++ cm = (if l.comment = [] then [] else B ++ cm) := by
    rcases hcm with ⟨e, e2⟩ | ⟨e, _⟩
    · rw [if_pos e, if_pos e, e2]; rfl
    · rw [if_neg e, if_neg e]
  rw [← this]
  simp only [Line.text, renewed, Line.designator, Line.nodesText, Line.itemsText, nodesText, List.append_assoc]
  rfl

theorem value_semi {after v : Str} {sh : Shape} (hv : Spec.CompLine.ValueOk w.word after sh v) : sh = .inst → ';' ∉ v := by
  rintro rfl hc
  cases hv with
  | inst _ _ h2 =>
    rcases h2 _ hc with g | g
    · rw [semi_not_word] at g; simp at g
    · revert g; decide

/-- C63: replacing the value of a component changes nothing else on its line, apart from the number of blanks: same designator, nodes,
parameters and comment. -/
theorem C63_write_value (l : Line) (sh : Shape) (h : l.Ok w.word sh) (hn : ∀ i ∈ l.items, NameOk numeric i.2.name) (hs : l.Spaced) (a : Attrs)
    (ha : reset w numeric shown (l.text ++ ['\n']) = .ok a) (v : Str) (hv : Spec.CompLine.ValueOk w.word (l.itemsText ++ l.comment) sh v)
    (h1 : ∀ c ∈ v, c ≠ '\n' ∧ c ≠ '\r') :
    ∃ l', rewrite w numeric shown (l.text ++ ['\n']) { a with value := some v } = .ok (l'.text ++ ['\n']) ∧ l'.items = l.items ∧
      Written w.word sh l l' v (fun k => lastValues k (l.items.map Prod.snd)) := by
  rw [reset_line w numeric shown h hn] at ha
  simp only [Except.ok.injEq] at ha
  subst ha
  have hr := (rewrite_eq w numeric shown h hn hs { read l with value := some v } v rfl rfl rfl (value_ends (words_visible w h) hv) (value_semi w hv)).1
  have hnd : differ (({ read l with value := some v } : Attrs).params.getD []) (dictOf (l.items.map Prod.snd)) = false := by
    show differ ((read l).params.getD []) _ = false
    rw [read_params, differ_false _ _ (dict_keys _) (dict_keys _)]
    intro _; rfl
  rw [hr hnd]
  by_cases e : l.nodesText = nodesText (single l.nodes) ∧ l.value = v
  · rw [if_pos e]
    exact ⟨l, rfl, rfl, h, rfl, rfl, e.2, fun _ => rfl, rfl⟩
  · rw [if_neg e, tail_eq w h]
    let B := if l.blanks = [] then [' '] else l.blanks
    have hB : B ≠ [] := by simp only [B]; split <;> simp_all
    have hB2 : ∀ c ∈ B, isSpace c = true := by
      intro c hc
      simp only [B] at hc
      split at hc
      · simp at hc; subst hc; decide
      · exact h.blanks c hc
    have hBc : (if l.comment = [] then ([] : Str) else B ++ rstrip l.comment) = if l.comment = [] then [] else l.blanks ++ rstrip l.comment := by
      by_cases ec : l.comment = []
      · simp [ec]
      · rw [if_neg ec, if_neg ec]
        have : l.blanks ≠ [] := (h.comment.resolve_left ec).1
        simp [B, this]
    refine ⟨renewed l v l.items B (rstrip l.comment), ?_, rfl, ?_⟩
    · rw [renewed_text _ _ _ _ (same_stripped w h hs), hBc]; rfl
    · refine ⟨renewed_ok w h v l.items h.items hv B _ hB hB2 (same_stripped w h hs) ?_, rfl, by simp [renewed, single], rfl, fun _ => rfl, rstrip_rstrip _⟩
      intro c hc
      simp only [List.mem_append, or_assoc] at hc
      rcases hc with g | g | g
      · exact h1 c g
      · exact h.oneLine c (by simp only [Line.text, List.mem_append]; exact .inl (.inl (.inr g)))
      · simp only [B] at g
        split at g
        · simp at g; subst g; decide
        · exact h.oneLine c (by simp only [Line.text, List.mem_append]; exact .inl (.inr g))

/-- A parameter that can be written and read back: a name of word characters, and a word or a list of words as value. -/
structure ParamOk (kv : Str × PV) : Prop where
  name : kv.1 ≠ [] ∧ ∀ c ∈ kv.1, w.word c = true
  nameOk : NameOk numeric kv.1
  value : Props.Params.ValueOk kv.2
  chars : ∀ t ∈ texts kv.2, ∀ c ∈ t, (w.word c = true ∨ c ∈ ['{', '}', '(', ')', '-', '+', '*', '/', '%', '.', ',', '\'', '"'] ∨ isSpace c = true) ∧ c ≠ '\n' ∧ c ≠ '\r'

theorem items_of (d : List (Str × PV)) (hk : ∀ kv ∈ d, ParamOk w numeric kv) : ∃ items : List (Str × Item), ItemsOk w.word items ∧
    items.map (fun i => (i.2.name, valueOf i.2)) = d ∧ items.flatMap (fun i => i.1 ++ i.2.text) = d.flatMap (fun kv => ' ' :: (kv.1 ++ '=' :: Model.Params.showPV kv.2)) ∧
    ∀ i ∈ items, i.1 = [' '] := by
  induction d with
  | nil => exact ⟨[], by intro i hi; simp at hi, rfl, rfl, by intro i hi; simp at hi⟩
  | cons kv d ih =>
    obtain ⟨items, h1, h2, h3, h4⟩ := ih (fun x hx => hk x (by simp [hx]))
    have hp := hk kv (by simp)
    have hw : Word kv.1 := Props.Params.plainWord kv.1 hp.name.1 (fun c hc => by
      have := w.not c (hp.name.2 c hc)
      refine ⟨this.1, fun g => this.2 ?_⟩
      simp only [List.mem_cons, List.not_mem_nil, or_false] at g ⊢
      rcases g with g | g | g | g | g | g <;> simp [g])
    obtain ⟨it, g1, g2, g3, g4⟩ := Props.Params.item_of kv.1 kv.2 hw hp.value
    have hval : it.values = texts kv.2 := by rw [← g3, Props.Params.texts_valueOf]
    refine ⟨([' '], it) :: items, ?_, ?_, ?_, ?_⟩
    · intro i hi
      rcases List.mem_cons.1 hi with rfl | hi
      · refine ⟨⟨by simp, by intro c hc; simp at hc; subst hc; decide⟩, g1, by rw [g2]; exact hp.name.2, ?_⟩
        intro t ht c hc
        have ht' : t ∈ it.values := ht
        rw [hval] at ht'
        exact (hp.chars t ht' c hc).1
      · exact h1 i hi
    · simp only [List.map_cons, h2, g2, g3]
    · rw [List.flatMap_cons, List.flatMap_cons, h3, g4]; rfl
    · intro i hi
      rcases List.mem_cons.1 hi with rfl | hi
      · rfl
      · exact h4 i hi

theorem show_flat (d : List (Str × PV)) (hne : d ≠ []) : ' ' :: showParams d = d.flatMap (fun kv => ' ' :: (kv.1 ++ '=' :: Model.Params.showPV kv.2)) := by
  induction d with
  | nil => simp at hne
  | cons a d ih =>
    cases d with
    | nil => simp [showParams, Model.Params.joinWith]
    | cons b d =>
      have := ih (by simp)
      rw [List.flatMap_cons, ← this]
      simp [showParams, Model.Params.joinWith]

theorem dictOf_items (items : List (Str × Item)) (d : List (Str × PV)) (hd : (d.map Prod.fst).Nodup) (h : items.map (fun i => (i.2.name, valueOf i.2)) = d) :
    dictOf (items.map Prod.snd) = d := by
  have := Props.Params.foldl_put_distinct ((items.map Prod.snd).map (fun it => (it, ([] : Str)))) [] (by
    have e : d.map Prod.fst = ((items.map Prod.snd).map (fun it => (it, ([] : Str)))).map (fun ib => ib.1.name) := by
      rw [← h]; simp [Function.comp_def]
    rw [← e]; simpa using hd)
  rw [List.foldl_map] at this
  unfold dictOf
  rw [this, ← h]
  simp [Function.comp_def]

/-- The text the editor writes for a dictionary. -/
def paramsText (d : List (Str × PV)) : Str := d.flatMap (fun kv => ' ' :: (kv.1 ++ '=' :: Model.Params.showPV kv.2))

theorem show_chars (d : List (Str × PV)) (hk : ∀ kv ∈ d, ParamOk w numeric kv) : ∀ c ∈ paramsText d, c ≠ '\n' ∧ c ≠ '\r' := by
  intro c hc
  simp only [paramsText, List.mem_flatMap, List.mem_cons, List.mem_append] at hc
  obtain ⟨kv, hkv, hc⟩ := hc
  have hp := hk kv hkv
  rcases hc with g | g | g | g
  · subst g; decide
  · have := (w.not c (hp.name.2 c g)).1
    constructor <;> (rintro rfl; revert this; decide)
  · subst g; decide
  · rcases hp.value with ⟨t, _, e⟩ | ⟨w1, w2, ws, e, _⟩
    · rw [e] at g
      exact (hp.chars t (by rw [e]; simp [texts]) c g).2
    · rw [e] at g
      have e3 : ((w1 :: w2 :: ws).map Model.Params.Atom.tok).map Model.Params.showAtom = w1 :: w2 :: ws := by simp [Function.comp_def, Model.Params.showAtom]
      simp only [Model.Params.showPV, e3, Props.Params.joinWith_tail, List.mem_append, List.mem_flatMap, List.mem_cons] at g
      have ht : texts kv.2 = w1 :: w2 :: ws := by
        rw [e]; simp only [texts, List.filterMap_map]
        exact List.filterMap_some
      rcases g with g | ⟨t, ht2, g | g⟩
      · exact (hp.chars w1 (by rw [ht]; simp) c g).2
      · subst g; decide
      · exact (hp.chars t (by rw [ht]; simp only [List.mem_cons]; exact .inr ht2) c g).2

/-- C63: setting the value and the parameters of a component: the line gets exactly these, and keeps its designator, its nodes and its
comment. -/
theorem C63_write (l : Line) (sh : Shape) (h : l.Ok w.word sh) (hn : ∀ i ∈ l.items, NameOk numeric i.2.name) (hs : l.Spaced) (a : Attrs)
    (ha : reset w numeric shown (l.text ++ ['\n']) = .ok a) (v : Str) (d : List (Str × PV)) (hne : d ≠ []) (hd : (d.map Prod.fst).Nodup)
    (hk : ∀ kv ∈ d, ParamOk w numeric kv) (hv : ∀ after, after = l.itemsText ∨ after = paramsText d → Spec.CompLine.ValueOk w.word (after ++ l.comment) sh v)
    (h1 : ∀ c ∈ v, c ≠ '\n' ∧ c ≠ '\r') :
    ∃ l', rewrite w numeric shown (l.text ++ ['\n']) { a with value := some v, params := some d } = .ok (l'.text ++ ['\n']) ∧
      (∀ i ∈ l'.items, NameOk numeric i.2.name) ∧ Written w.word sh l l' v (fun k => (d.lookup k).map texts) := by
  rw [reset_line w numeric shown h hn] at ha
  simp only [Except.ok.injEq] at ha
  subst ha
  obtain ⟨r1, r2⟩ := rewrite_eq w numeric shown h hn hs { read l with value := some v, params := some d } v rfl rfl rfl (value_ends (words_visible w h) (hv _ (.inl rfl))) (value_semi w (hv _ (.inl rfl)))
  cases hdf : differ d (dictOf (l.items.map Prod.snd)) with
  | false =>
    have hv0 := hv _ (.inl rfl)
    obtain ⟨l', g1, g2, g3⟩ := C63_write_value w numeric shown l sh h hn hs (read l) (reset_line w numeric shown h hn) v hv0 h1
    refine ⟨l', ?_, by rw [g2]; exact hn, ⟨g3.ok, g3.designator, g3.nodes, g3.value, ?_, g3.comment⟩⟩
    · rw [r1 hdf, ← g1]
      have r3 := (rewrite_eq w numeric shown h hn hs { read l with value := some v } v rfl rfl rfl (value_ends (words_visible w h) hv0) (value_semi w hv0)).1
      rw [r3 ?_]
      show differ ((read l).params.getD []) _ = false
      rw [read_params, differ_false _ _ (dict_keys _) (dict_keys _)]
      intro _; rfl
    · intro k
      rw [g3.items k, (differ_false _ _ hd (dict_keys _)).1 hdf k, lookup_dictOf]
  | true =>
    obtain ⟨items, i1, i2, i3, i4⟩ := items_of w numeric d hk
    have hsf := show_flat d hne
    have hitems : itemsText items = ' ' :: showParams d := by rw [hsf]; exact i3
    have hine : items ≠ [] := by rintro rfl; simp at i2; exact hne i2
    have hSl : ∀ c, (showParams d).getLast? = some c → isSpace c = false := by
      intro c hc
      have := items_ends w items i1 c
      rw [hitems] at this
      apply this
      rw [List.getLast?_cons, hc]; rfl
    obtain ⟨kv, d', rfl⟩ := List.exists_cons_of_ne_nil hne
    have hp := hk kv (by simp)
    obtain ⟨y, n, en⟩ := List.exists_cons_of_ne_nil hp.name.1
    have hShape : ∃ (q : Char) (r : Str), showParams (kv :: d') = y :: q :: r := by
      have : showParams (kv :: d') = Model.Params.joinWith ' ' ((kv.1 ++ '=' :: Model.Params.showPV kv.2) :: d'.map (fun kv => kv.1 ++ '=' :: Model.Params.showPV kv.2)) := rfl
      rw [this, en]
      have two : ∀ z : Str, ∃ (q : Char) (r : Str), y :: n ++ '=' :: z = y :: q :: r := by
        intro z
        cases n with
        | nil => exact ⟨_, _, rfl⟩
        | cons q n => exact ⟨_, _, rfl⟩
      cases d'.map (fun kv => kv.1 ++ '=' :: Model.Params.showPV kv.2) with
      | nil => exact two _
      | cons x q =>
        obtain ⟨q', r, e⟩ := two (Model.Params.showPV kv.2)
        exact ⟨q', r ++ ' ' :: Model.Params.joinWith ' ' (x :: q), by rw [e]; rfl⟩
    obtain ⟨q, r, hr⟩ := hShape
    have hSn : 1 < (showParams (kv :: d')).length := by rw [hr]; simp
    have hSh : ∀ c, (showParams (kv :: d')).head? = some c → isSpace c = false := by
      intro c hc
      rw [hr] at hc; simp at hc; rw [← hc]
      exact (w.not y (hp.name.2 y (by simp [en]))).1
    obtain ⟨B1, E, e1, b11, b12, e2⟩ := r2 hdf _ rfl hSn hSh hSl
    have hB : ∃ B cm : Str, B ≠ [] ∧ (∀ c ∈ B, c = ' ') ∧ SameComment l cm ∧ E = if l.comment = [] then [] else B ++ cm := by
      rcases e2 with ⟨g1, g2⟩ | ⟨g1, B, cm, g2, g3, g4, g5, g6, g7⟩
      · exact ⟨[' '], [], by simp, by simp, .inl ⟨g1, rfl⟩, by rw [if_pos g1]; exact g2⟩
      · exact ⟨B, cm, g2, g3, .inr ⟨g1, g5, g6, g7⟩, by rw [if_neg g1]; exact g4⟩
    obtain ⟨B, cm, b1, b2, hcm, b3⟩ := hB
    obtain ⟨i, is, rfl⟩ := List.exists_cons_of_ne_nil hine
    have hi1 := i4 i (by simp)
    have hrest : i.2.text ++ itemsText is = showParams (kv :: d') := by
      have : itemsText (i :: is) = ' ' :: (i.2.text ++ itemsText is) := by
        show (i :: is).flatMap (fun i => i.1 ++ i.2.text) = _
        rw [List.flatMap_cons, hi1]; simp [itemsText]
      rw [this] at hitems
      simpa using hitems
    have hnew : ((B1, i.2) :: is).flatMap (fun i => i.1 ++ i.2.text) = B1 ++ showParams (kv :: d') := by
      rw [List.flatMap_cons, ← hrest]; simp [itemsText]
    have hmap : ((B1, i.2) :: is).map (fun i => (i.2.name, valueOf i.2)) = kv :: d' := by rw [← i2]; rfl
    have hpt : paramsText (kv :: d') = ' ' :: showParams (kv :: d') := hsf.symm
    refine ⟨renewed l v ((B1, i.2) :: is) B cm, ?_, ?_, ?_⟩
    · rw [e1, renewed_text _ _ _ _ hcm, b3, hnew]
      simp
    · intro j hj
      have : (j.2.name, valueOf j.2) ∈ kv :: d' := by
        rw [← hmap]; exact List.mem_map.2 ⟨j, hj, rfl⟩
      exact (hk _ this).nameOk
    · refine ⟨renewed_ok w h v _ ?_ ?_ B cm b1 ?_ hcm ?_, rfl, by simp [renewed, single], rfl, ?_, same_rstrip hcm⟩
      · intro j hj
        rcases List.mem_cons.1 hj with rfl | hj
        · exact ⟨⟨b11, by intro c hc; rw [b12 c hc]; decide⟩, (i1 i (by simp)).2⟩
        · exact i1 j (by simp [hj])
      · rw [hnew]
        refine value_sub w ?_ (hv _ (.inr rfl))
        intro q hq g1 g2
        rw [hpt] at g1
        simp only [List.mem_append, List.mem_cons, not_or] at g1 g2
        rcases g2 with (g | g) | g
        · exact g1.1.1 (b12 q g)
        · exact g1.1.2 g
        · exact g1.2 g
      · intro c hc; rw [b2 c hc]; decide
      · intro c hc
        rw [hnew] at hc
        simp only [List.mem_append, or_assoc] at hc
        rcases hc with g | g | g | g
        · exact h1 c g
        · rw [b12 c g]; decide
        · exact show_chars w numeric _ hk c (by rw [hpt]; simp [g])
        · rw [b2 c g]; decide
      · intro k
        have := lookup_dictOf (((B1, i.2) :: is).map Prod.snd) k
        rw [dictOf_items _ _ hd hmap] at this
        exact this.symm

/-- C63: what was set is read back from the line that was written. -/
theorem C63_write_read (l : Line) (sh : Shape) (h : l.Ok w.word sh) (hn : ∀ i ∈ l.items, NameOk numeric i.2.name) (hs : l.Spaced) (a : Attrs)
    (ha : reset w numeric shown (l.text ++ ['\n']) = .ok a) (v : Str) (d : List (Str × PV)) (hne : d ≠ []) (hd : (d.map Prod.fst).Nodup)
    (hk : ∀ kv ∈ d, ParamOk w numeric kv) (hv : ∀ after, after = l.itemsText ∨ after = paramsText d → Spec.CompLine.ValueOk w.word (after ++ l.comment) sh v)
    (h1 : ∀ c ∈ v, c ≠ '\n' ∧ c ≠ '\r') :
    ∃ text a', rewrite w numeric shown (l.text ++ ['\n']) { a with value := some v, params := some d } = .ok text ∧
      reset w numeric shown text = .ok a' ∧ a'.ref = a.ref ∧ a'.ports = a.ports ∧ a'.value = some v ∧
      ∀ k, ((a'.params.getD []).lookup k).map texts = (d.lookup k).map texts := by
  obtain ⟨l', g1, g2, g3⟩ := C63_write w numeric shown l sh h hn hs a ha v d hne hd hk hv h1
  obtain ⟨a', r1, r2, r3, r4, r5, r6⟩ := C63_read w numeric shown l' sh g3.ok g2
  have hr : a.ref = l.reference ∧ a.ports = l.nodes.map Prod.snd := by
    rw [reset_line w numeric shown h hn] at ha
    simp only [Except.ok.injEq] at ha
    subst ha; exact ⟨rfl, rfl⟩
  refine ⟨_, a', g1, r1, ?_, ?_, ?_, ?_⟩
  · rw [r2, hr.1, ← undress_line w g3.ok, g3.designator, undress_line w h]
  · rw [r3, hr.2, g3.nodes]
  · rw [r4, g3.value]
  · intro k; rw [r6, g3.items]

/-- C63: a component that was not changed is written as its line, when each node comes after one space. -/
theorem C63_untouched (l : Line) (sh : Shape) (h : l.Ok w.word sh) (hn : ∀ i ∈ l.items, NameOk numeric i.2.name) (hs : l.Spaced) (a : Attrs)
    (ha : reset w numeric shown (l.text ++ ['\n']) = .ok a) (h1 : ∀ n ∈ l.nodes, n.1 = [' ']) :
    rewrite w numeric shown (l.text ++ ['\n']) a = .ok (l.text ++ ['\n']) := by
  rw [reset_line w numeric shown h hn] at ha
  simp only [Except.ok.injEq] at ha
  subst ha
  have hr := (rewrite_eq w numeric shown h hn hs (read l) l.value rfl rfl rfl (value_ends (words_visible w h) h.value) (value_semi w h.value)).1
  rw [hr (by
    rw [read_params, differ_false _ _ (dict_keys _) (dict_keys _)]
    intro _; rfl)]
  have e : single l.nodes = l.nodes := by
    unfold single
    conv => rhs; rw [← List.map_id l.nodes]
    apply List.map_congr_left
    intro n hn
    rw [← h1 n hn]; rfl
  rw [e, if_pos ⟨rfl, rfl⟩]

/-! ### Examples -/

/-- The ASCII word characters. -/
def ascii : WordClass where
  word c := c.isAlphanum || c = '_'
  ascii := by intro c h; simpa using h
  not := by
    intro c h
    constructor
    · by_contra hs
      have f := (Lemmas.ParamRegex.space_facts c (by simpa using hs)).1
      have : Model.ParamRegex.wordChar c = true := by
        simp only [Model.ParamRegex.wordChar, Char.isAlphanum, Bool.or_eq_true, decide_eq_true_eq] at h ⊢
        exact h
      rw [this] at f; simp at f
    · intro hc
      simp only [List.mem_cons, List.not_mem_nil, or_false] at hc
      rcases hc with rfl | rfl | rfl | rfl | rfl | rfl | rfl | rfl | rfl | rfl | rfl | rfl | rfl | rfl | rfl | rfl | rfl | rfl | rfl | rfl | rfl <;>
        exact absurd h (by decide)

def digits (s : Str) : Bool := !s.isEmpty && s.all Char.isDigit
def str : PV → Str := Model.Params.showPV

def exR : Line :=
  { letter := 'R', marked := true, name := "1".toList, nodes := [(" ".toList, "in".toList), (" ".toList, "n-1".toList)], gap := " ".toList, pre := [], value := "4.7k".toList,
    items := [(" ".toList, ⟨"tc".toList, [], [], "1".toList, []⟩), (" ".toList, ⟨"temp".toList, [], [], "25".toList, []⟩)], blanks := " ".toList, comment := "; load".toList }

example : exR.text = "R§1 in n-1 4.7k tc=1 temp=25 ; load".toList := by decide +kernel

theorem exR_ok : exR.Ok ascii.word .passive ∧ exR.Spaced ∧ ∀ i ∈ exR.items, NameOk digits i.2.name := by
  have plain : ∀ s : Str, s ≠ [] → (∀ c ∈ s, isSpace c = false ∧ c ∉ [',', '=', '{', '}', '"', '\'']) → Word s := Props.Params.plainWord
  refine ⟨⟨rfl, by decide +kernel, ?_, rfl, ?_, .inl rfl, .plain _ (by decide) (by decide +kernel), ?_, ?_, .inr (by decide), by decide +kernel⟩, ⟨by decide +kernel, .inl rfl⟩, ?_⟩
  · simp only [Blank]; decide +kernel
  · simp only [Blank]; decide +kernel
  · intro i hi
    simp only [exR, List.mem_cons, List.not_mem_nil, or_false] at hi
    rcases hi with rfl | rfl
    · refine ⟨by simp only [Blank]; decide +kernel, ⟨plain _ (by decide) (by decide +kernel), ?_, ?_, plain _ (by decide) (by decide +kernel), ?_⟩, by decide +kernel, by decide +kernel⟩ <;> intro c hc <;> simp at hc
    · refine ⟨by simp only [Blank]; decide +kernel, ⟨plain _ (by decide) (by decide +kernel), ?_, ?_, plain _ (by decide) (by decide +kernel), ?_⟩, by decide +kernel, by decide +kernel⟩ <;> intro c hc <;> simp at hc
  · simp only [Blank]; decide +kernel
  · unfold NameOk; decide +kernel

def newParams : List (Str × PV) := [("tc".toList, .many [.tok "1".toList, .tok "2".toList]), ("pwr".toList, .one (.tok "{2*p}".toList))]

theorem newParams_ok : newParams ≠ [] ∧ (newParams.map Prod.fst).Nodup ∧ ∀ kv ∈ newParams, ParamOk ascii digits kv := by
  have plain : ∀ s : Str, s ≠ [] → (∀ c ∈ s, isSpace c = false ∧ c ∉ [',', '=', '{', '}', '"', '\'']) → Word s := Props.Params.plainWord
  refine ⟨by decide, by decide, ?_⟩
  intro kv hkv
  simp only [newParams, List.mem_cons, List.not_mem_nil, or_false] at hkv
  rcases hkv with rfl | rfl
  · refine ⟨by decide +kernel, by unfold NameOk; decide +kernel, .inr ⟨"1".toList, "2".toList, [], rfl, ?_⟩, by decide +kernel⟩
    intro t ht
    simp only [List.mem_cons, List.not_mem_nil, or_false] at ht
    rcases ht with rfl | rfl
    · exact plain _ (by decide) (by decide +kernel)
    · exact plain _ (by decide) (by decide +kernel)
  · refine ⟨by decide +kernel, by unfold NameOk; decide +kernel, .inl ⟨"{2*p}".toList, ⟨["{2*p}".toList], by simp, ?_, by simp⟩, rfl⟩, by decide +kernel⟩
    intro p hp
    simp only [List.mem_singleton] at hp
    subst hp
    exact .braces "2*p".toList (by decide)

/-- The hypotheses of C63_write_read are met. -/
example : ∃ text a', rewrite ascii digits str (exR.text ++ ['\n']) { read exR with value := some "{x+1}".toList, params := some [("tc".toList, PV.many [.tok "1".toList, .tok "2".toList])] } = .ok text ∧
    reset ascii digits str text = .ok a' ∧ a'.value = some "{x+1}".toList := by
  obtain ⟨text, a', g1, g2, _, _, g3, _⟩ := C63_write_read ascii digits str exR .passive exR_ok.1 exR_ok.2.2 exR_ok.2.1 (read exR) (reset_line ascii digits str exR_ok.1 exR_ok.2.2)
    "{x+1}".toList [("tc".toList, PV.many [.tok "1".toList, .tok "2".toList])] (by decide) (by decide) (fun kv hkv => newParams_ok.2.2 kv (by simp at hkv; subst hkv; decide)) (by
      rintro after (rfl | rfl)
      · exact .braces "x+1".toList (by decide +kernel)
      · exact .braces "x+1".toList (by decide +kernel)) (by decide +kernel)
  exact ⟨text, a', g1, g2, g3⟩

/-- A value in braces before parameters in braces does not meet them, but any other value does. -/
example : ∃ l', rewrite ascii digits str (exR.text ++ ['\n']) { read exR with value := some "10k".toList, params := some newParams } = .ok (l'.text ++ ['\n']) ∧
    Written ascii.word .passive exR l' "10k".toList (fun k => (newParams.lookup k).map texts) := by
  obtain ⟨l', g1, _, g2⟩ := C63_write ascii digits str exR .passive exR_ok.1 exR_ok.2.2 exR_ok.2.1 (read exR) (reset_line ascii digits str exR_ok.1 exR_ok.2.2)
    "10k".toList newParams newParams_ok.1 newParams_ok.2.1 newParams_ok.2.2 (fun after _ => .plain _ (by decide) (by decide +kernel)) (by decide +kernel)
  exact ⟨l', g1, g2⟩

/-- The text itself. -/
def saved (line : String) (change : Attrs → Attrs) : Except Err Str :=
  match reset ascii digits str line.toList with
  | .error e => .error e
  | .ok a => rewrite ascii digits str line.toList (change a)

def isText (r : Except Err Str) (t : String) : Bool := match r with | .ok s => decide (s = t.toList) | .error _ => false
def isError (r : Except Err Str) (e : Err) : Bool := match r with | .ok _ => false | .error e' => decide (e = e')

example : isText (saved "R§1 in n-1 4.7k tc=1 temp=25 ; load\n" (fun a => { a with value := some "10k".toList, params := some newParams }))
    "R§1 in n-1 10k tc=1,2 pwr={2*p} ; load\n" = true := by decide +kernel

/-- A MOS transistor with four nodes, and a source. -/
def exM : Line :=
  { letter := 'M', marked := false, name := "2".toList, nodes := ["d", "g", "s", "b"].map (fun n => (" ".toList, n.toList)), gap := " ".toList, pre := [], value := "NMOS.1".toList,
    items := [(" ".toList, ⟨"W".toList, [], [], "1u".toList, []⟩)], blanks := [], comment := [] }

theorem exM_ok : exM.Ok ascii.word (.model 3 4) ∧ exM.Spaced ∧ ∀ i ∈ exM.items, NameOk digits i.2.name := by
  have plain : ∀ s : Str, s ≠ [] → (∀ c ∈ s, isSpace c = false ∧ c ∉ [',', '=', '{', '}', '"', '\'']) → Word s := Props.Params.plainWord
  refine ⟨⟨rfl, by decide +kernel, ?_, ⟨by decide, by decide⟩, ?_, .inl rfl, .model _ _ _ (by decide) (by decide +kernel), ?_, ?_, .inl rfl, by decide +kernel⟩, ⟨by decide +kernel, .inl rfl⟩, ?_⟩
  · simp only [Blank]; decide +kernel
  · simp only [Blank]; decide +kernel
  · intro i hi
    simp only [exM, List.mem_cons, List.not_mem_nil, or_false] at hi
    subst hi
    refine ⟨by simp only [Blank]; decide +kernel, ⟨plain _ (by decide) (by decide +kernel), ?_, ?_, plain _ (by decide) (by decide +kernel), ?_⟩, by decide +kernel, by decide +kernel⟩ <;> intro c hc <;> simp at hc
  · simp only [Blank]; decide +kernel
  · unfold NameOk; decide +kernel

example : reset ascii digits str "M2 d g s b NMOS.1 W=1u\n".toList = .ok (read exM) := reset_line ascii digits str exM_ok.1 exM_ok.2.2

def exV : Line :=
  { letter := 'V', marked := false, name := "in".toList, nodes := [("  ".toList, "a".toList), ("\t".toList, "0".toList)], gap := " ".toList, pre := [], value := "PULSE(0 5 1n) AC 1".toList,
    items := [(" ".toList, ⟨"Rser".toList, [' '], [' '], "3".toList, []⟩)], blanks := "  ".toList, comment := ";supply".toList }

theorem exV_ok : exV.Ok ascii.word .source ∧ ∀ i ∈ exV.items, NameOk digits i.2.name := by
  have plain : ∀ s : Str, s ≠ [] → (∀ c ∈ s, isSpace c = false ∧ c ∉ [',', '=', '{', '}', '"', '\'']) → Word s := Props.Params.plainWord
  refine ⟨⟨rfl, by decide +kernel, ?_, rfl, ?_, .inl rfl, .source _ (by decide) (by decide +kernel) (by decide +kernel) (by decide +kernel), ?_, ?_, .inr (by decide), by decide +kernel⟩, ?_⟩
  · simp only [Blank]; decide +kernel
  · simp only [Blank]; decide +kernel
  · intro i hi
    simp only [exV, List.mem_cons, List.not_mem_nil, or_false] at hi
    subst hi
    refine ⟨by simp only [Blank]; decide +kernel, ⟨plain _ (by decide) (by decide +kernel), ?_, ?_, plain _ (by decide) (by decide +kernel), ?_⟩, by decide +kernel, by decide +kernel⟩
    · intro c hc; simp at hc; subst hc; decide
    · intro c hc; simp at hc; subst hc; decide
    · intro c hc; simp at hc
  · simp only [Blank]; decide +kernel
  · unfold NameOk; decide +kernel

example : reset ascii digits str "Vin  a\t0 PULSE(0 5 1n) AC 1 Rser = 3  ;supply\n".toList =
    .ok { ref := "VIN".toList, ports := ["a".toList, "0".toList], value := some "PULSE(0 5 1n) AC 1".toList, params := some [("Rser".toList, .one (.tok "3".toList))] } :=
  reset_line ascii digits str exV_ok.1 exV_ok.2

/-- An instance of a sub-circuit, with an expression with a blank as a parameter. -/
def exX : Line :=
  { letter := 'X', marked := false, name := "1".toList, nodes := ["in", "out", "0"].map (fun n => (" ".toList, n.toList)), gap := " ".toList, pre := [], value := "FILTER.2".toList,
    items := [(" ".toList, ⟨"f".toList, [], [], "1k".toList, []⟩), ("  ".toList, ⟨"q".toList, [], [], "{x + y}".toList, []⟩)], blanks := "   ".toList, comment := "; low=pass".toList }

example : exX.text = "X1 in out 0 FILTER.2 f=1k  q={x + y}   ; low=pass".toList := by decide +kernel

theorem exX_ok : exX.Ok ascii.word .inst ∧ exX.Spaced ∧ ∀ i ∈ exX.items, NameOk digits i.2.name := by
  have plain : ∀ s : Str, s ≠ [] → (∀ c ∈ s, isSpace c = false ∧ c ∉ [',', '=', '{', '}', '"', '\'']) → Word s := Props.Params.plainWord
  refine ⟨⟨rfl, by decide +kernel, ?_, ⟨by decide, by decide⟩, ?_, .inl rfl, .inst _ (by decide) (by decide +kernel), ?_, ?_, .inr (by decide), by decide +kernel⟩, ⟨by decide +kernel, .inl rfl⟩, ?_⟩
  · simp only [Blank]; decide +kernel
  · simp only [Blank]; decide +kernel
  · intro i hi
    simp only [exX, List.mem_cons, List.not_mem_nil, or_false] at hi
    rcases hi with rfl | rfl
    · refine ⟨by simp only [Blank]; decide +kernel, ⟨plain _ (by decide) (by decide +kernel), ?_, ?_, plain _ (by decide) (by decide +kernel), ?_⟩, by decide +kernel, by decide +kernel⟩ <;> intro c hc <;> simp at hc
    · refine ⟨by simp only [Blank]; decide +kernel, ⟨plain _ (by decide) (by decide +kernel), ?_, ?_, ⟨["{x + y}".toList], by simp, by intro p hp; simp only [List.mem_singleton] at hp; subst hp; exact .braces "x + y".toList (by decide +kernel), by decide +kernel⟩, ?_⟩, by decide +kernel, by decide +kernel⟩ <;> intro c hc <;> simp at hc
  · simp only [Blank]; decide +kernel
  · unfold NameOk; decide +kernel

example : reset ascii digits str "X1 in out 0 FILTER.2 f=1k  q={x + y}   ; low=pass\n".toList =
    .ok { ref := "X1".toList, ports := ["in".toList, "out".toList, "0".toList], value := some "FILTER.2".toList, params := some [("f".toList, .one (.tok "1k".toList)), ("q".toList, .one (.tok "{x + y}".toList))] } :=
  reset_line ascii digits str exX_ok.1 exX_ok.2.2

/-! ### What is not covered, and why -/

def valueRead (line : String) : Option (Option Str) := match reset ascii digits str line.toList with | .ok a => some a.value | .error _ => none
def paramsRead (line : String) : Option (Option (List (Str × PV))) := match reset ascii digits str line.toList with | .ok a => some a.params | .error _ => none
def portsRead (line : String) : Option (List Str) := match reset ascii digits str line.toList with | .ok a => some a.ports | .error _ => none

/-- C63: a value in braces goes on to the last closing brace of the line: the parameters become part of it. -/
theorem C63_braces_swallow_params : valueRead "C1 a b {x} ic={y}\n" = some (some "{x} ic={y}".toList) ∧ paramsRead "C1 a b {x} ic={y}\n" = some none := by
  decide +kernel

/-- C63: a comment with a brace after a value in braces becomes part of the value. -/
theorem C63_comment_in_value : valueRead "R1 a b {x} ; was {y} before\n" = some (some "{x} ; was {y}".toList) := by
  decide +kernel

/-- C63: SPICE does not distinguish upper and lower case, but the letter has to be a capital. -/
theorem C63_lower_case_refused : isError (saved "r1 a b 1k\n" id) .notImplemented = true := by decide +kernel

/-- C63: a flag after the model of a transistor with three nodes is read as the model. -/
theorem C63_flag_is_model : valueRead "M1 d g s NMOS off W=1u\n" = some (some "off".toList) ∧ portsRead "M1 d g s NMOS off W=1u\n" =
    some ["d".toList, "g".toList, "s".toList, "NMOS".toList] := by decide +kernel

/-- C63: the comment after a controlled source is part of its value. -/
theorem C63_controlled_source_comment : valueRead "E1 a b c d 5 ; gain\n" = some (some "c d 5 ; gain".toList) := by decide +kernel

/-- C63: with a tab before the value, setting value and parameters cuts the value: Spaced is needed. -/
theorem C63_tab_cuts_value : isText (saved "R1 a b\t1k tc=1\n" (fun a => { a with value := some "2k".toList, params := some [("tc".toList, .one (.tok "5".toList))] }))
    "R1 a b\t 2 tc=5\n" = true := by decide +kernel

/-- C63: the same happens with `C=` before the value. -/
theorem C63_prefix_cuts_value : isText (saved "C1 a b C=1n ic=1\n" (fun a => { a with value := some "2n".toList, params := some [("ic".toList, .one (.tok "5".toList))] }))
    "C1 a b C= 2 ic=5\n" = true := by decide +kernel

/-- C63: removing the only parameter of a component does not change the line. -/
theorem C63_last_param_stays : isText (saved "R1 a b 1k tc=1\n" (fun a => { a with params := some [] })) "R1 a b 1k tc=1 \n" = true := by decide +kernel

/-- C63: an expression over two lines can be read, but the netlist cannot be saved. -/
theorem C63_two_lines_unsaved : valueRead "R1 a b {x+\ny}\n" = some (some "{x+ y}".toList) ∧ isError (saved "R1 a b {x+\ny}\n" id) .unrecognized = true := by
  decide +kernel

/-- C63: renaming a component with LTspice's mark and setting its value leaves a piece of the old value. -/
theorem C63_renamed_marked : isText (saved "R§1 a b 1k ; foo\n" (fun a => { a with value := some "2k".toList, ref := "R2".toList })) "R§2 a b 1 2k ; foo\n" = true := by
  decide +kernel

/-- C63: blanks between nodes are not kept. -/
theorem C63_blanks_normalised : isText (saved "R1  a b 1k\n" id) "R1 a b 1k\n" = true := by decide +kernel

/-- The keyword before the parameters of an instance is not part of them, and it is kept. -/
example : valueRead "X1 a b SUB params: k=1\n" = some (some "SUB".toList) ∧ paramsRead "X1 a b SUB params: k=1\n" = some (some [("k".toList, .one (.tok "1".toList))]) ∧
    isText (saved "X1 a b SUB params: k=1\n" (fun a => { a with params := some [("k".toList, .one (.tok "2".toList))] })) "X1 a b SUB params: k=2\n" = true := by
  refine ⟨by decide +kernel, by decide +kernel, by decide +kernel⟩

/-- The first parameter of an instance comes after two spaces; with a comment after one. -/
example : isText (saved "X1 in 0 AMP\n" (fun a => { a with params := some [("k".toList, .one (.tok "2".toList))] })) "X1 in 0 AMP  k=2\n" = true ∧
    isText (saved "X1 in 0 AMP   ; gain\n" (fun a => { a with params := some [("k".toList, .one (.tok "2".toList))] })) "X1 in 0 AMP k=2 ; gain \n" = true := by
  refine ⟨by decide +kernel, by decide +kernel⟩

/-- C63: a comment directly after a parameter of an instance is part of the parameter, and is lost when the parameter is set. -/
theorem C63_comment_in_param : paramsRead "X1 a b SUB k=1;c\n" = some (some [("k".toList, .one (.tok "1;c".toList))]) ∧
    isText (saved "X1 a b SUB k=1;c\n" (fun a => { a with params := some [("k".toList, .one (.tok "2".toList))] })) "X1 a b SUB k=2\n" = true := by
  refine ⟨by decide +kernel, by decide +kernel⟩

end Props.CompLine
