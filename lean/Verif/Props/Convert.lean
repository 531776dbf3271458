import Verif.Spec.Converted
import Verif.Props.Qsch
import Verif.Props.Asy
import Mathlib.Data.List.Forall2
import Mathlib.Data.List.Nodup

/-! C79: converting LTspice schematics to QSPICE. -/
namespace Props.Convert
open Model.PyStr Model.Qsch Lemmas.PyStr Props.Qsch
open Model.Convert hiding Str
open Model.QNetlist (getItems getText)
open Model.Asc (Sch Comp Text Line Shape AttrVal TextType dset)
open Spec.QschTree hiding Str
open Spec.Converted hiding Str

/-! ### Tags -/

def Plain (w : Str) : Prop := w ≠ [] ∧ ∀ c ∈ w, isSpace c = false ∧ c ≠ '"' ∧ c ≠ '«' ∧ c ≠ '»' ∧ c ≠ ':'

theorem colon_front (a b : Str) (ha : ':' ∉ a) (hb : ¬ HasColon b) : ¬ HasColon (a ++ ' ' :: b) := by
  rintro ⟨s, t, h⟩
  rw [List.append_assoc] at h
  rcases List.append_eq_append_iff.1 h with ⟨u, h1, h2⟩ | ⟨u, h1, h2⟩
  · match u, h2 with
    | [], h2 => simp at h2
    | c :: u, h2 =>
      simp only [List.cons_append, List.cons.injEq] at h2
      exact ha (by rw [h1, ← h2.1]; simp)
  · match u, h2 with
    | [], h2 => simp at h2
    | c :: u, h2 =>
      simp only [List.cons_append, List.cons.injEq] at h2
      exact hb ⟨u, t, by rw [h2.2]; simp⟩

theorem colon_join : ∀ (front : List Str) (w : Str), (∀ x ∈ front, ':' ∉ x) → ¬ HasColon w → ¬ HasColon (join (front ++ [w]))
  | [], w, _, hw => hw
  | [a], w, ha, hw => colon_front a w (ha a (by simp)) hw
  | a :: b :: l, w, ha, hw => by
    have := colon_join (b :: l) w (fun x hx => ha x (List.mem_cons_of_mem _ hx)) hw
    exact colon_front a _ (ha a (by simp)) this

theorem colon_none (w : Str) (h : ':' ∉ w) : ¬ HasColon w := by
  rintro ⟨s, t, rfl⟩
  exact h (by simp)

theorem colon_quoted (s : Str) (h : ¬ HasColon s) : ¬ HasColon (quoted s) := by
  rintro ⟨a, b, e⟩
  unfold quoted at e
  match a, e with
  | [], e => simp at e
  | c :: a, e =>
    simp only [List.cons_append, List.cons.injEq] at e
    rcases List.eq_nil_or_concat' b with rfl | ⟨b', d, rfl⟩
    · have := congrArg List.getLast? e.2
      simp at this
    · have e2 : (a ++ [':', ' '] ++ b') ++ [d] = s ++ ['"'] := by rw [← e.2]; simp
      exact h ⟨a, b', (List.append_inj' e2 rfl).1⟩

theorem plain_token {w : Str} (h : Plain w) : Token w := .word w h.1 (fun c hc => ⟨(h.2 c hc).1, (h.2 c hc).2.1, (h.2 c hc).2.2.1, (h.2 c hc).2.2.2.1⟩)
theorem plain_colon {w : Str} (h : Plain w) : ':' ∉ w := fun hc => (h.2 _ hc).2.2.2.2 rfl
theorem quoted_token {s : Str} (h : Quotable s) : Token (quoted s) := .quoted s (fun c hc hq => h.1 (hq ▸ hc))

theorem leaf_quoted (front : List Str) (s : Str) (h : ∀ w ∈ front, Plain w) (hs : Quotable s) : LeafTokens (front ++ [quoted s]) := by
  refine .inl ⟨?_, ?_⟩
  · intro w hw
    rcases List.mem_append.1 hw with hw | hw
    · exact plain_token (h w hw)
    · rw [List.mem_singleton.1 hw]; exact quoted_token hs
  · rw [← Lemmas.Qsch.join_eq]
    exact colon_join _ _ (fun x hx => plain_colon (h x hx)) (colon_quoted s hs.2)

theorem leaf_plain (front : List Str) (w : Str) (h : ∀ x ∈ front, Plain x) (hw : Plain w) : LeafTokens (front ++ [w]) := by
  refine .inl ⟨?_, ?_⟩
  · intro x hx
    rcases List.mem_append.1 hx with hx | hx
    · exact plain_token (h x hx)
    · rw [List.mem_singleton.1 hx]; exact plain_token hw
  · rw [← Lemmas.Qsch.join_eq]
    exact colon_join _ _ (fun x hx => plain_colon (h x hx)) (colon_none w (plain_colon hw))

theorem tag_leaf (toks : List Str) (h : LeafTokens toks) : tag toks = some (.mk toks []) := by
  obtain ⟨h1, h2⟩ := lastTokens_leaf toks h
  unfold tag parse
  obtain ⟨m, h3, h4⟩ := loop_line (join toks) h2 ((join toks ++ ['»']).length + 1) ['»'] [] [] [] (by omega)
  have : loop ((join toks ++ ['»']).length + 1) (join toks ++ ['»']) [] [] [] = .ok (.mk toks [], []) := by
    rw [h4]
    obtain ⟨k, rfl⟩ : ∃ k, m = k + 1 := ⟨m - 1, by simp at h3; omega⟩
    rw [loop_close k [] _ [] toks [] (by simpa using h1)]
    rfl
  simp only [List.cons_append]
  rw [this]

theorem plain_dec (w : Str) (h : (w ≠ [] ∧ w.all (fun c => !isSpace c && c != '"' && c != '«' && c != '»' && c != ':')) = true) : Plain w := by
  have h : w ≠ [] ∧ w.all (fun c => !isSpace c && c != '"' && c != '«' && c != '»' && c != ':') = true := by simpa using h
  refine ⟨h.1, fun c hc => ?_⟩
  have := List.all_eq_true.1 h.2 c hc
  simpa [and_assoc] using this

theorem showInt_plain (n : Int) : Plain (showInt n) := by
  refine ⟨showInt_ne n, fun c hc => ?_⟩
  obtain ⟨h1, _, h3, _, _, _, h7, h8, h9⟩ := showInt_props n c hc
  exact ⟨h1, h3, h7, h8, h9⟩

theorem showNat_plain (n : Nat) : Plain (showNat n) := showInt_plain (Int.ofNat n)

theorem paren_plain (a b : Str) (ha : Plain a) (hb : Plain b) : Plain (paren a b) := by
  refine ⟨by simp [paren], fun c hc => ?_⟩
  have : c = '(' ∨ c ∈ a ∨ c = ',' ∨ c ∈ b ∨ c = ')' := by simpa [paren, or_assoc] using hc
  rcases this with rfl | hc | rfl | hc | rfl
  · decide
  · exact ha.2 c hc
  · decide
  · exact hb.2 c hc
  · decide

theorem point_plain (x y : Int) : Plain (point x y) := paren_plain _ _ (showInt_plain x) (showInt_plain y)

theorem fixedX_plain (x : Int) : Plain (fixedX x) := showInt_plain _
theorem fixedY_plain (y : Int) : Plain (fixedY y) := by
  unfold fixedY
  split_ifs
  · exact plain_dec _ (by decide)
  · exact showInt_plain _

/-! ### Attributes -/

theorem get_paren (a b : Str) (x y : Int) (ha : Plain a ∧ ',' ∉ a) (hb : Plain b ∧ ',' ∉ b) (hx : parseInt a = some x) (hy : parseInt b = some y) :
    getToken (paren a b) = some (.tuple [x, y]) := by
  unfold getToken
  have e : paren a b = '(' :: ((a ++ ',' :: b) ++ [')']) := by simp [paren]
  rw [e, if_pos ⟨rfl, by rw [← List.cons_append, List.getLast?_concat]⟩]
  rw [List.drop_succ_cons, List.drop_zero, List.dropLast_concat,
    splitOn_cons ',' _ _ (fun c hc h => ha.2 (h ▸ hc)), splitOn_clean ',' _ (fun c hc h => hb.2 (h ▸ hc))]
  simp [hx, hy, allSome]

theorem showInt_comma (n : Int) : ',' ∉ showInt n := fun h => (showInt_props n _ h).2.1 rfl

theorem get_point (x y : Int) : getToken (point x y) = some (.tuple [x, y]) :=
  get_paren _ _ x y ⟨showInt_plain x, showInt_comma x⟩ ⟨showInt_plain y, showInt_comma y⟩ (parseInt_show x) (parseInt_show y)

theorem get_fixed (x y : Int) : getToken (paren (fixedX x) (fixedY y)) = some (.tuple [nearest (25 * x), nearest (-25 * y)]) := by
  refine get_paren _ _ _ _ ⟨fixedX_plain x, showInt_comma _⟩ ⟨fixedY_plain y, ?_⟩ (parseInt_show _) ?_
  · unfold fixedY
    split_ifs
    · decide
    · exact showInt_comma _
  · unfold fixedY
    split_ifs with h
    · subst h; decide +kernel
    · exact parseInt_show _

theorem get_quoted (s : Str) : getToken (quoted s) = some (.text s) := by
  unfold getToken quoted
  rw [if_neg (by simp), if_neg (by simp), if_pos ⟨rfl, by rw [List.getLast?_concat]⟩]
  simp

theorem get_nat (n : Nat) : getToken (showNat n) = some (.int n) := by
  have := C38_set_get_int (.mk [[]] []) (.mk [showInt n] []) 0 n rfl
  exact this

/-! ### The tags of the schematic -/

theorem labelTag_eq (p : Int × Int) (text : Str) (h : text.take 2 ≠ ['0', 'x']) :
    labelTag p text = some (.mk ["net".toList, point p.1 p.2, "1".toList, "13".toList, "0".toList, quoted text] []) := by
  have e : tag (lits "net (0,0) 1 13 0 \"0\"") = some (.mk ["net".toList, "(0,0)".toList, "1".toList, "13".toList, "0".toList, quoted "0".toList] []) := by
    rw [show lits "net (0,0) 1 13 0 \"0\"" = ["net".toList, "(0,0)".toList, "1".toList, "13".toList, "0".toList] ++ [quoted "0".toList] by decide +kernel]
    apply tag_leaf
    apply leaf_quoted
    · intro w hw
      simp only [List.mem_cons, List.not_mem_nil, or_false] at hw
      rcases hw with rfl | rfl | rfl | rfl | rfl <;> exact plain_dec _ (by decide +kernel)
    · exact ⟨by decide, by rw [← Lemmas.Qsch.contains_iff _ _ (by simp)]; decide⟩
  unfold labelTag
  rw [e]
  simp [Tag.setAttr, Val.token, h, Tag.tokens, Tag.items, point, paren, quoted]

theorem wireTag_eq (l : Line) : wireTag l = some (.mk ["wire".toList, point (scaleX l.x1) (scaleY l.y1), point (scaleX l.x2) (scaleY l.y2), quoted "0".toList] []) := by
  have e : tag (lits "wire (0,0) (0,0) \"0\"") = some (.mk ["wire".toList, "(0,0)".toList, "(0,0)".toList, quoted "0".toList] []) := by
    rw [show lits "wire (0,0) (0,0) \"0\"" = ["wire".toList, "(0,0)".toList, "(0,0)".toList] ++ [quoted "0".toList] by decide +kernel]
    apply tag_leaf
    apply leaf_quoted
    · intro w hw
      simp only [List.mem_cons, List.not_mem_nil, or_false] at hw
      rcases hw with rfl | rfl | rfl <;> exact plain_dec _ (by decide +kernel)
    · exact ⟨by decide, by rw [← Lemmas.Qsch.contains_iff _ _ (by simp)]; decide⟩
  unfold wireTag
  rw [e]
  simp [Tag.setAttr, Val.token, Tag.tokens, Tag.items, point, paren]

theorem lineTag_eq (l : Line) : lineTag l = some (.mk (["line".toList, point (scaleX l.x1) (scaleY l.y1), point (scaleX l.x2) (scaleY l.y2),
    "0".toList, "2".toList, "0xff0000".toList, "-1".toList] ++ ["-1".toList]) []) := by
  have e : tag (lits "line (2000,1300) (3150,-100) 0 2 0xff0000 -1 -1") = some (.mk (["line".toList, "(2000,1300)".toList, "(3150,-100)".toList,
    "0".toList, "2".toList, "0xff0000".toList, "-1".toList] ++ ["-1".toList]) []) := by
    rw [show lits "line (2000,1300) (3150,-100) 0 2 0xff0000 -1 -1" = ["line".toList, "(2000,1300)".toList, "(3150,-100)".toList,
    "0".toList, "2".toList, "0xff0000".toList, "-1".toList] ++ ["-1".toList] by decide +kernel]
    apply tag_leaf
    apply leaf_plain
    · intro w hw
      simp only [List.mem_cons, List.not_mem_nil, or_false] at hw
      rcases hw with rfl | rfl | rfl | rfl | rfl | rfl | rfl <;> exact plain_dec _ (by decide +kernel)
    · exact plain_dec _ (by decide +kernel)
  unfold lineTag
  rw [e]
  simp [Tag.setAttr, Val.token, Tag.tokens, Tag.items, point, paren]

theorem directiveTag_eq (t : Text) : directiveTag t = some (.mk (["text".toList, point (scaleX t.x) (scaleY t.y), "1".toList, "7".toList, "0".toList,
    "0x1000000".toList, "-1".toList, "-1".toList] ++ [quoted (qualifier ++ t.text)]) []) := by
  have e : tag (lits "text (0,0) 1 7 0 0x1000000 -1 -1 \"text\"") = some (.mk (["text".toList, "(0,0)".toList, "1".toList, "7".toList, "0".toList,
    "0x1000000".toList, "-1".toList, "-1".toList] ++ [quoted "text".toList]) []) := by
    rw [show lits "text (0,0) 1 7 0 0x1000000 -1 -1 \"text\"" = ["text".toList, "(0,0)".toList, "1".toList, "7".toList, "0".toList,
    "0x1000000".toList, "-1".toList, "-1".toList] ++ [quoted "text".toList] by decide +kernel]
    apply tag_leaf
    apply leaf_quoted
    · intro w hw
      simp only [List.mem_cons, List.not_mem_nil, or_false] at hw
      rcases hw with rfl | rfl | rfl | rfl | rfl | rfl | rfl | rfl <;> exact plain_dec _ (by decide +kernel)
    · exact ⟨by decide, by rw [← Lemmas.Qsch.contains_iff _ _ (by simp)]; decide⟩
  unfold directiveTag
  rw [e]
  simp [Tag.setAttr, Val.token, Tag.tokens, Tag.items, point, paren, quoted, qualifier]

theorem compTag_eq (p : Placed) : compTag p = some (.mk ["component".toList, point p.x p.y, showNat (p.rot / 45), "0".toList] p.symbol.toList) := by
  unfold compTag
  rw [show ["component".toList, point p.x p.y, showNat (p.rot / 45), "0".toList] = ["component".toList, point p.x p.y, showNat (p.rot / 45)] ++ ["0".toList] by rfl,
    tag_leaf _ (leaf_plain _ _ ?_ (plain_dec _ (by decide)))]
  · simp [Tag.tokens, Tag.items]
  · intro w hw
    simp only [List.mem_cons, List.not_mem_nil, or_false] at hw
    rcases hw with rfl | rfl | rfl
    · exact plain_dec _ (by decide +kernel)
    · exact point_plain _ _
    · exact showNat_plain _

/-! ### Loops -/

theorem each_map {α β : Type} (f : α → Option β) (g : α → β) : ∀ l : List α, (∀ a ∈ l, f a = some (g a)) → each f l = some (l.map g)
  | [], _ => rfl
  | a :: l, h => by
    rw [each, h a (by simp), each_map f g l (fun x hx => h x (List.mem_cons_of_mem _ hx))]
    rfl

theorem each_all {α β : Type} (f : α → Option β) (P : β → Prop) : ∀ l : List α, (∀ a ∈ l, ∃ b, f a = some b ∧ P b) → ∃ r, each f l = some r ∧ ∀ b ∈ r, P b
  | [], _ => ⟨[], rfl, by simp⟩
  | a :: l, h => by
    obtain ⟨b, hb, hp⟩ := h a (by simp)
    obtain ⟨r, hr, hq⟩ := each_all f P l (fun x hx => h x (List.mem_cons_of_mem _ hx))
    refine ⟨b :: r, by rw [each, hb, hr]; rfl, ?_⟩
    intro x hx
    rcases List.mem_cons.1 hx with rfl | hx
    · exact hp
    · exact hq x hx

/-! ### Symbols -/

/-- A childless tag of a given kind. -/
def Drawn (names : List Str) (t : Tag) : Prop := ∃ name ∈ names, ∃ toks, t = .mk (name :: toks) [] ∧ LeafTokens (name :: toks)

theorem drawn_wf {names : List Str} {t : Tag} (h : Drawn names t) : WellFormed t := by
  obtain ⟨n, _, toks, rfl, h⟩ := h
  exact .leaf _ h

theorem drawn_head {names : List Str} {t : Tag} (h : Drawn names t) (n : Str) (hn : n ∉ names) : ¬ t.tokens.head? = some n := by
  obtain ⟨m, hm, toks, rfl, _⟩ := h
  simp only [Tag.tokens, List.head?_cons, Option.some.injEq]
  rintro rfl
  exact hn hm

theorem filter_none (l : List Tag) (n : Str) (h : ∀ t ∈ l, ¬ t.tokens.head? = some n) : l.filter (fun x => x.tokens.head? = some n) = [] := by
  rw [List.filter_eq_nil_iff]
  intro t ht
  simpa using h t ht

theorem filter_all (l : List Tag) (n : Str) (h : ∀ t ∈ l, t.tokens.head? = some n) : l.filter (fun x => x.tokens.head? = some n) = l := by
  rw [List.filter_eq_self]
  intro t ht
  simpa using h t ht

theorem symLine_ok (l : Line) : ∃ t, symLine l = some t ∧ Drawn ["line".toList] t := by
  have : LeafTokens ((["line".toList, point (scaleX l.x1) (scaleY l.y1), point (scaleX l.x2) (scaleY l.y2)] ++ ["0".toList, "0".toList, "0x1000000".toList, "-1".toList]) ++ ["-1".toList]) := by
    apply leaf_plain
    · intro w hw
      simp only [List.cons_append, List.nil_append, List.mem_cons, List.not_mem_nil, or_false] at hw
      rcases hw with rfl | rfl | rfl | rfl | rfl | rfl | rfl <;> first | exact point_plain _ _ | exact plain_dec _ (by decide +kernel)
    · exact plain_dec _ (by decide +kernel)
  refine ⟨_, ?_, "line".toList, by simp, _, rfl, this⟩
  unfold symLine
  rw [show lits "0 0 0x1000000 -1 -1" = ["0".toList, "0".toList, "0x1000000".toList, "-1".toList] ++ ["-1".toList] by decide +kernel, ← List.append_assoc, tag_leaf _ this]
  rfl

theorem symBox_ok (name : Str) (mid : List Str) (z : Str) (hn : Plain name) (hm : ∀ w ∈ mid, Plain w) (hz : Plain z) (ps : List (Int × Int)) (h : 2 ≤ ps.length) :
    ∃ t, symBox name (mid ++ [z]) ps = some t ∧ Drawn [name] t := by
  match ps, h with
  | a :: b :: r, _ =>
    have : LeafTokens ((([name, point (scaleX a.1) (scaleY a.2), point (scaleX b.1) (scaleY b.2)] : List Str) ++ mid) ++ [z]) := by
      apply leaf_plain
      · intro w hw
        rcases List.mem_append.1 hw with hw | hw
        · simp only [List.mem_cons, List.not_mem_nil, or_false] at hw
          rcases hw with rfl | rfl | rfl
          · exact hn
          · exact point_plain _ _
          · exact point_plain _ _
        · exact hm w hw
      · exact hz
    refine ⟨_, ?_, name, by simp, _, rfl, this⟩
    unfold symBox
    simp only
    rw [← List.append_assoc, tag_leaf _ this]
    rfl

theorem symArc_ok (arc : List (Int × Int) → Option ((Int × Int) × (Int × Int) × (Int × Int))) (ps : List (Int × Int)) (h : (arc ps).isSome) :
    ∃ t, symArc arc ps = some t ∧ Drawn ["arc3p".toList] t := by
  obtain ⟨p, hp⟩ := Option.isSome_iff_exists.1 h
  have : LeafTokens ((["arc3p".toList, point p.1.1 p.1.2, point p.2.1.1 p.2.1.2, point p.2.2.1 p.2.2.2] ++ ["0".toList, "0".toList, "0xff0000".toList, "-1".toList]) ++ ["-1".toList]) := by
    apply leaf_plain
    · intro w hw
      simp only [List.cons_append, List.nil_append, List.mem_cons, List.not_mem_nil, or_false] at hw
      rcases hw with rfl | rfl | rfl | rfl | rfl | rfl | rfl | rfl <;> first | exact point_plain _ _ | exact plain_dec _ (by decide +kernel)
    · exact plain_dec _ (by decide +kernel)
  refine ⟨_, ?_, "arc3p".toList, by simp, _, rfl, this⟩
  unfold symArc
  rw [hp, Option.bind_some, show lits "0 0 0xff0000 -1 -1" = ["0".toList, "0".toList, "0xff0000".toList, "-1".toList] ++ ["-1".toList] by decide +kernel, ← List.append_assoc, tag_leaf _ this]
  rfl

theorem drawn_mono {a b : List Str} {t : Tag} (h : Drawn a t) (hs : ∀ x ∈ a, x ∈ b) : Drawn b t := by
  obtain ⟨n, hn, r⟩ := h
  exact ⟨n, hs n hn, r⟩

theorem symShape_ok (arc : List (Int × Int) → Option ((Int × Int) × (Int × Int) × (Int × Int))) (s : Shape)
    (h : (s.name = "RECTANGLE".toList ∨ s.name = "CIRCLE".toList) ∧ 2 ≤ s.points.length ∨ s.name = "ARC".toList ∧ (arc s.points).isSome) :
    ∃ t, symShape arc s = some t ∧ Drawn ["rect".toList, "ellipse".toList, "arc3p".toList] t := by
  unfold symShape
  rcases h with ⟨h | h, h2⟩ | ⟨h, h2⟩
  · rw [if_pos h, show lits "0 0 0 0x4000000 0x1000000 -1 0 -1" = ["0".toList, "0".toList, "0".toList, "0x4000000".toList, "0x1000000".toList, "-1".toList, "0".toList] ++ ["-1".toList] by decide +kernel]
    obtain ⟨t, h3, h4⟩ := symBox_ok "rect".toList ["0".toList, "0".toList, "0".toList, "0x4000000".toList, "0x1000000".toList, "-1".toList, "0".toList] "-1".toList
      (plain_dec _ (by decide +kernel)) (by
        intro w hw
        simp only [List.mem_cons, List.not_mem_nil, or_false] at hw
        rcases hw with rfl | rfl | rfl | rfl | rfl | rfl | rfl <;> exact plain_dec _ (by decide +kernel)) (plain_dec _ (by decide +kernel)) s.points h2
    exact ⟨t, h3, drawn_mono h4 (by simp)⟩
  · rw [if_neg (by rw [h]; decide), if_neg (by rw [h]; decide), if_pos (.inl h),
      show lits "0 0 0 0x1000000 0x1000000 -1 -1" = ["0".toList, "0".toList, "0".toList, "0x1000000".toList, "0x1000000".toList, "-1".toList] ++ ["-1".toList] by decide +kernel]
    obtain ⟨t, h3, h4⟩ := symBox_ok "ellipse".toList ["0".toList, "0".toList, "0".toList, "0x1000000".toList, "0x1000000".toList, "-1".toList] "-1".toList
      (plain_dec _ (by decide +kernel)) (by
        intro w hw
        simp only [List.mem_cons, List.not_mem_nil, or_false] at hw
        rcases hw with rfl | rfl | rfl | rfl | rfl | rfl <;> exact plain_dec _ (by decide +kernel)) (plain_dec _ (by decide +kernel)) s.points h2
    exact ⟨t, h3, drawn_mono h4 (by simp)⟩
  · rw [if_neg (by rw [h]; decide), if_pos h]
    obtain ⟨t, h3, h4⟩ := symArc_ok arc s.points h2
    exact ⟨t, h3, drawn_mono h4 (by simp)⟩

/-- The text tag of a window. -/
def textToks (w : Text) (a : Str) : List Str :=
  ["text".toList, paren (fixedX w.x) (fixedY w.y), "1".toList, "7".toList, "0".toList, "0x1000000".toList, "-1".toList, "-1".toList] ++ [quoted a]

theorem textToks_leaf (w : Text) (a : Str) (h : Quotable a) : LeafTokens (textToks w a) := by
  apply leaf_quoted
  · intro w hw
    simp only [List.mem_cons, List.not_mem_nil, or_false] at hw
    rcases hw with rfl | rfl | rfl | rfl | rfl | rfl | rfl | rfl <;> first | exact paren_plain _ _ (fixedX_plain _) (fixedY_plain _) | exact plain_dec _ (by decide +kernel)
  · exact h

theorem symTexts_eq (w1 w2 : Text) (a b : Str) (ha : Quotable a) (hb : Quotable b) :
    symTexts [w1, w2] [a, b] = some [.mk (textToks w1 a) [], .mk (textToks w2 b) []] := by
  have e : ∀ (w : Text) (a : Str), ["text".toList, paren (fixedX w.x) (fixedY w.y)] ++ lits "1 7 0 0x1000000 -1 -1" ++ [quoted a] = textToks w a := by
    intro w a
    rw [show lits "1 7 0 0x1000000 -1 -1" = ["1".toList, "7".toList, "0".toList, "0x1000000".toList, "-1".toList, "-1".toList] by decide +kernel]
    rfl
  simp only [symTexts]
  rw [e, e, tag_leaf _ (textToks_leaf w1 a ha), tag_leaf _ (textToks_leaf w2 b hb)]
  rfl

/-! ### Pins -/

theorem pinAttrs_pairs : ∀ (as : List (Str × Str)) (d : List (Str × Str)), (∀ a ∈ as, ';' ∉ a.1 ∧ '=' ∉ a.1 ∧ ';' ∉ a.2 ∧ '=' ∉ a.2) →
    pinAttrs (splitOn ';' (as.flatMap (fun a => a.1 ++ '=' :: a.2 ++ [';']))) d = some (as.foldl (fun d a => dset a.1 a.2 d) d)
  | [], d, _ => rfl
  | a :: as, d, h => by
    obtain ⟨h1, h2, h3, h4⟩ := h a (by simp)
    have e : (a :: as).flatMap (fun a => a.1 ++ '=' :: a.2 ++ [';']) = (a.1 ++ '=' :: a.2) ++ ';' :: as.flatMap (fun a => a.1 ++ '=' :: a.2 ++ [';']) := by simp
    rw [e, splitOn_cons ';' _ _ (by
      intro c hc hq
      subst hq
      rcases List.mem_append.1 hc with hc | hc
      · exact h1 hc
      · rcases List.mem_cons.1 hc with hc | hc
        · exact absurd hc (by decide)
        · exact h3 hc), pinAttrs, if_pos (by simp),
      splitOn_cons '=' _ _ (fun c hc hq => h2 (hq ▸ hc)), splitOn_clean '=' _ (fun c hc hq => h4 (hq ▸ hc))]
    exact pinAttrs_pairs as _ (fun x hx => h x (List.mem_cons_of_mem _ hx))

theorem lookup_sets (k : Str) : ∀ (as : List (Str × Str)) (d : List (Str × Str)), (∀ a ∈ as, a.1 ≠ k) →
    (as.foldl (fun d a => dset a.1 a.2 d) d).lookup k = d.lookup k
  | [], _, _ => rfl
  | a :: as, d, h => by
    rw [List.foldl_cons, lookup_sets k as _ (fun x hx => h x (List.mem_cons_of_mem _ hx)), Props.Asy.lookup_dset]
    have := h a (by simp)
    simp [Ne.symm this]

/-- The tag of a pin. -/
def pinToks (p : Text) (n : Str) : List Str :=
  ["pin".toList, paren (fixedX p.x) (fixedY p.y), "(0,0)".toList, "1".toList, "0".toList, "0".toList, "0x1000000".toList, "-1".toList] ++ [quoted n]

theorem symPin_eq (p : Text) (n : Str) (h : PinNamed p n) (hq : Quotable n) : symPin p = some (.mk (pinToks p n) []) ∧ LeafTokens (pinToks p n) := by
  have hl : LeafTokens (pinToks p n) := by
    apply leaf_quoted
    · intro w hw
      simp only [List.mem_cons, List.not_mem_nil, or_false] at hw
      rcases hw with rfl | rfl | rfl | rfl | rfl | rfl | rfl | rfl <;> first | exact paren_plain _ _ (fixedX_plain _) (fixedY_plain _) | exact plain_dec _ (by decide +kernel)
    · exact hq
  refine ⟨?_, hl⟩
  obtain ⟨before, after, h1, h2, h3⟩ := h
  unfold symPin
  rw [h1, pinAttrs_pairs _ _ h2, Option.bind_some, List.foldl_append, List.foldl_cons, lookup_sets _ _ _ h3, Props.Asy.lookup_dset, if_pos rfl, Option.bind_some]
  rw [show lits "1 0 0 0x1000000 -1" = ["1".toList, "0".toList, "0".toList, "0x1000000".toList, "-1".toList] by decide +kernel]
  exact tag_leaf _ hl

/-! ### The whole symbol -/

theorem free_leaf (label s : Str) (hl : ¬ HasColon label ∧ ∀ c ∈ label, c ≠ '"' ∧ c ≠ '«' ∧ c ≠ '»' ∧ c ≠ '\n') (h : Free s) : LeafTokens [label ++ [':'], s] := by
  refine .inr ⟨label, s, rfl, hl.1, h.2, ?_⟩
  apply Lemmas.Qsch.oneLine_plain
  intro c hc
  rcases List.mem_append.1 hc with hc | hc
  · rcases List.mem_append.1 hc with hc | hc
    · exact hl.2 c hc
    · simp only [List.mem_cons, List.not_mem_nil, or_false] at hc
      rcases hc with rfl | rfl <;> decide
  · exact h.1 c hc

/-- What matters of the tag of a symbol. -/
structure SymTag (t : Tag) (pins : List Text) (pfx desc ref value : Str) : Prop where
  wf : WellFormed t
  head : t.tokens.head? = some "symbol".toList
  texts : ∃ a b : Tag, getItems t "text".toList = [a, b] ∧ textAt a 8 = some ref ∧ b.getAttr 8 = some (.text value)
  type : ∀ d, getText t "type".toList d = some pfx
  desc : ∀ d, getText t "description".toList d = some desc
  pins : each (fun q => pairAt q 1) (getItems t "pin".toList) = some (pins.map (fun p => (nearest (25 * p.x), nearest (-25 * p.y))))

theorem getItems_parts (t : Tag) (h3 ls ss ts ps : List Tag) (ht : t.items = h3 ++ ls ++ ss ++ ts ++ ps) (n : Str) :
    getItems t n = h3.filter (fun x => x.tokens.head? = some n) ++ ls.filter (fun x => x.tokens.head? = some n) ++ ss.filter (fun x => x.tokens.head? = some n) ++
      ts.filter (fun x => x.tokens.head? = some n) ++ ps.filter (fun x => x.tokens.head? = some n) := by
  unfold getItems
  rw [ht, List.filter_append, List.filter_append, List.filter_append, List.filter_append]

theorem pins_tags : ∀ (ps : List Text), (∀ p ∈ ps, ∃ n, PinNamed p n ∧ Quotable n) → ∃ r, each symPin ps = some r ∧ (∀ t ∈ r, WellFormed t ∧ t.tokens.head? = some "pin".toList) ∧
    each (fun q => pairAt q 1) r = some (ps.map (fun p => (nearest (25 * p.x), nearest (-25 * p.y))))
  | [], _ => ⟨[], rfl, by simp, rfl⟩
  | p :: ps, h => by
    obtain ⟨n, h1, h2⟩ := h p (by simp)
    obtain ⟨r, h3, h4, h5⟩ := pins_tags ps (fun x hx => h x (List.mem_cons_of_mem _ hx))
    obtain ⟨h6, h7⟩ := symPin_eq p n h1 h2
    refine ⟨.mk (pinToks p n) [] :: r, by rw [each, h6, h3]; rfl, ?_, ?_⟩
    · intro t ht
      rcases List.mem_cons.1 ht with rfl | ht
      · exact ⟨.leaf _ h7, rfl⟩
      · exact h4 t ht
    · have : pairAt (.mk (pinToks p n) []) 1 = some (nearest (25 * p.x), nearest (-25 * p.y)) := by
        unfold pairAt Tag.getAttr
        simp only [Tag.tokens, pinToks, List.cons_append, List.getElem?_cons_succ, List.getElem?_cons_zero, Option.bind_some, get_fixed]
      rw [each, this, h5]
      rfl

theorem toQsch_ok (arc : List (Int × Int) → Option ((Int × Int) × (Int × Int) × (Int × Int))) (st : Model.Asy.St) (pfx desc ref value : Str)
    (h : SymbolOk arc st pfx desc) (hr : Quotable ref) (hv : Quotable value) :
    ∃ t, toQsch arc st ref value = some t ∧ SymTag t st.pins pfx desc ref value := by
  obtain ⟨c, r, hpfx, hc⟩ := h.first
  obtain ⟨w1, w2, hw⟩ : ∃ w1 w2, st.windows = [w1, w2] := by
    have := h.windows
    match hh : st.windows, this with
    | [a, b], _ => exact ⟨a, b, rfl⟩
  obtain ⟨ls, l1, l2⟩ := each_all symLine _ st.lines (fun l _ => symLine_ok l)
  obtain ⟨ss, s1, s2⟩ := each_all (symShape arc) _ st.shapes (fun s hs => symShape_ok arc s (h.shapes s hs))
  obtain ⟨ps, p1, p2, p3⟩ := pins_tags st.pins h.pins
  have ht := symTexts_eq w1 w2 ref value hr hv
  refine ⟨.mk ["symbol".toList, [c]]
      ([.mk ["type:".toList, c :: r] [], .mk ["description:".toList, desc] [], .mk ["shorted pins:".toList, "false".toList] []] ++ ls ++ ss ++
        [.mk (textToks w1 ref) [], .mk (textToks w2 value) []] ++ ps), ?_, ?_⟩
  · unfold toQsch
    rw [h.prefixed, h.described, l1, s1, hw, ht, p1, hpfx]
    rfl
  · have hh : ∀ x ∈ pfx, x ≠ '"' ∧ x ≠ '«' ∧ x ≠ '»' ∧ x ≠ '\n' := h.free.1
    have hc' := hh c (by rw [hpfx]; simp)
    have T1 : LeafTokens ["type:".toList, c :: r] := by
      have := free_leaf "type".toList pfx ⟨colon_none _ (by decide), by decide⟩ h.free
      rw [hpfx] at this
      exact this
    have T2 : LeafTokens ["description:".toList, desc] := free_leaf "description".toList desc ⟨colon_none _ (by decide), by decide⟩ h.descFree
    have T3 : LeafTokens ["shorted pins:".toList, "false".toList] := free_leaf "shorted pins".toList "false".toList ⟨colon_none _ (by decide), by decide⟩
      ⟨by decide, colon_none _ (by decide)⟩
    have texts := textToks_leaf w1 ref hr
    have texts' := textToks_leaf w2 value hv
    have items := getItems_parts (.mk ["symbol".toList, [c]]
      ([.mk ["type:".toList, c :: r] [], .mk ["description:".toList, desc] [], .mk ["shorted pins:".toList, "false".toList] []] ++ ls ++ ss ++
        [.mk (textToks w1 ref) [], .mk (textToks w2 value) []] ++ ps)) _ _ _ _ _ rfl
    constructor
    · refine .node _ _ (by simp) ?_ ?_
      · intro w hw
        simp only [List.mem_cons, List.not_mem_nil, or_false] at hw
        rcases hw with rfl | rfl
        · exact plain_token (plain_dec _ (by decide +kernel))
        · refine .word _ (by simp) ?_
          intro x hx
          obtain rfl := List.mem_singleton.1 hx
          exact ⟨hc, hc'.1, hc'.2.1, hc'.2.2.1⟩
      · intro t ht
        simp only [List.mem_append, List.mem_cons, List.not_mem_nil, or_false] at ht
        rcases ht with (((h1 | h1) | h1) | h1) | h1
        · rcases h1 with rfl | rfl | rfl
          · exact .leaf _ T1
          · exact .leaf _ T2
          · exact .leaf _ T3
        · exact drawn_wf (l2 t h1)
        · exact drawn_wf (s2 t h1)
        · rcases h1 with rfl | rfl
          · exact .leaf _ texts
          · exact .leaf _ texts'
        · exact (p2 t h1).1
    · rfl
    · refine ⟨.mk (textToks w1 ref) [], .mk (textToks w2 value) [], ?_, ?_, ?_⟩
      · rw [items, filter_none ls _ (fun t ht => drawn_head (l2 t ht) _ (by decide)), filter_none ss _ (fun t ht => drawn_head (s2 t ht) _ (by decide)),
          filter_none ps _ (fun t ht hh => by rw [(p2 t ht).2] at hh; exact absurd hh (by decide))]
        rfl
      · unfold textAt Tag.getAttr
        simp only [Tag.tokens, textToks, List.cons_append, List.nil_append, List.getElem?_cons_succ, List.getElem?_cons_zero, Option.bind_some, get_quoted]
      · unfold Tag.getAttr
        simp only [Tag.tokens, textToks, List.cons_append, List.nil_append, List.getElem?_cons_succ, List.getElem?_cons_zero, Option.bind_some, get_quoted]
    · intro d
      unfold getText
      rw [items, filter_none ls _ (fun t ht => drawn_head (l2 t ht) _ (by decide)), filter_none ss _ (fun t ht => drawn_head (s2 t ht) _ (by decide)),
          filter_none ps _ (fun t ht hh => by rw [(p2 t ht).2] at hh; exact absurd hh (by decide))]
      rw [hpfx]
      rfl
    · intro d
      unfold getText
      rw [items, filter_none ls _ (fun t ht => drawn_head (l2 t ht) _ (by decide)), filter_none ss _ (fun t ht => drawn_head (s2 t ht) _ (by decide)),
          filter_none ps _ (fun t ht hh => by rw [(p2 t ht).2] at hh; exact absurd hh (by decide))]
      rfl
    · rw [items, filter_none ls _ (fun t ht => drawn_head (l2 t ht) _ (by decide)), filter_none ss _ (fun t ht => drawn_head (s2 t ht) _ (by decide)),
        filter_all ps _ (fun t ht => (p2 t ht).2)]
      exact p3

/-! ### Shapes of the schematic -/

theorem boxTag_ok (text : String) (name a0 b0 : Str) (mid : List Str) (z : Str) (hl : lits text = ([name, a0, b0] ++ mid) ++ [z])
    (hp : ∀ w ∈ name :: a0 :: b0 :: mid, Plain w) (hz : Plain z) (ps : List (Int × Int)) (h : 2 ≤ ps.length) :
    ∃ t, boxTag text ps = some t ∧ Drawn [name] t := by
  match ps, h with
  | a :: b :: r, _ =>
    have e0 : LeafTokens (([name, a0, b0] ++ mid) ++ [z]) := leaf_plain _ _ (by
      intro w hw
      rcases List.mem_append.1 hw with hw | hw
      · simp only [List.mem_cons, List.not_mem_nil, or_false] at hw
        exact hp w (by simp only [List.mem_cons]; tauto)
      · exact hp w (by simp [hw])) hz
    have e1 : LeafTokens (([name, point (scaleX a.1) (scaleY a.2), point (scaleX b.1) (scaleY b.2)] ++ mid) ++ [z]) := leaf_plain _ _ (by
      intro w hw
      rcases List.mem_append.1 hw with hw | hw
      · simp only [List.mem_cons, List.not_mem_nil, or_false] at hw
        rcases hw with rfl | rfl | rfl
        · exact hp _ (by simp)
        · exact point_plain _ _
        · exact point_plain _ _
      · exact hp w (by simp [hw])) hz
    refine ⟨_, ?_, name, by simp, _, rfl, e1⟩
    unfold boxTag
    simp only
    rw [hl, tag_leaf _ e0]
    simp [Tag.setAttr, Val.token, Tag.tokens, Tag.items, point, paren]

theorem arcTag_ok (arc : List (Int × Int) → Option ((Int × Int) × (Int × Int) × (Int × Int))) (ps : List (Int × Int)) (h : ps.length = 4)
    (ha : (arc (ps.map (fun p => (scaleX p.1, scaleY p.2)))).isSome) : ∃ t, arcTag arc ps = some t ∧ Drawn ["arc3p".toList] t := by
  obtain ⟨p, hp⟩ := Option.isSome_iff_exists.1 ha
  have e0 : LeafTokens (["arc3p".toList, "(2700,300)".toList, "(2250,1200)".toList, "(2500,800)".toList, "0".toList, "2".toList, "0xff0000".toList, "-1".toList] ++ ["-1".toList]) := by
    apply leaf_plain
    · intro w hw
      simp only [List.mem_cons, List.not_mem_nil, or_false] at hw
      rcases hw with rfl | rfl | rfl | rfl | rfl | rfl | rfl | rfl <;> exact plain_dec _ (by decide +kernel)
    · exact plain_dec _ (by decide +kernel)
  have e1 : LeafTokens (["arc3p".toList, point p.1.1 p.1.2, point p.2.1.1 p.2.1.2, point p.2.2.1 p.2.2.2, "0".toList, "2".toList, "0xff0000".toList, "-1".toList] ++ ["-1".toList]) := by
    apply leaf_plain
    · intro w hw
      simp only [List.mem_cons, List.not_mem_nil, or_false] at hw
      rcases hw with rfl | rfl | rfl | rfl | rfl | rfl | rfl | rfl <;> first | exact point_plain _ _ | exact plain_dec _ (by decide +kernel)
    · exact plain_dec _ (by decide +kernel)
  refine ⟨_, ?_, "arc3p".toList, by simp, _, rfl, e1⟩
  unfold arcTag
  rw [if_pos h, hp, Option.bind_some,
    show lits "arc3p (2700,300) (2250,1200) (2500,800) 0 2 0xff0000 -1 -1" = ["arc3p".toList, "(2700,300)".toList, "(2250,1200)".toList, "(2500,800)".toList, "0".toList, "2".toList, "0xff0000".toList, "-1".toList] ++ ["-1".toList] by decide +kernel,
    tag_leaf _ e0]
  simp [Tag.setAttr, Val.token, Tag.tokens, Tag.items, point, paren]

theorem scaleX_east (x : Int) : scaleX x = east x := rfl
theorem scaleY_north (y : Int) : scaleY y = north y := by
  unfold scaleY north
  rw [Int.neg_mul, Int.neg_tdiv]

theorem shapeTag_ok (arc : List (Int × Int) → Option ((Int × Int) × (Int × Int) × (Int × Int))) (s : Shape)
    (h : (s.name = "RECTANGLE".toList ∨ s.name = "CIRCLE".toList) ∧ 2 ≤ s.points.length ∨
      s.name = "ARC".toList ∧ s.points.length = 4 ∧ (arc (s.points.map (fun p => (east p.1, north p.2)))).isSome) :
    ∃ ts, shapeTag arc s = some ts ∧ ∀ t ∈ ts, Drawn ["rect".toList, "ellipse".toList, "arc3p".toList] t := by
  unfold shapeTag
  rcases h with ⟨h | h, h2⟩ | ⟨h, h2, h3⟩
  · rw [if_pos h]
    obtain ⟨t, h3, h4⟩ := boxTag_ok "rect (1850,1550) (3650,-400) 0 0 2 0xff0000 0x1000000 -1 0 -1" "rect".toList "(1850,1550)".toList "(3650,-400)".toList
      ["0".toList, "0".toList, "2".toList, "0xff0000".toList, "0x1000000".toList, "-1".toList, "0".toList] "-1".toList (by decide +kernel) (by
        intro w hw
        simp only [List.mem_cons, List.not_mem_nil, or_false] at hw
        rcases hw with rfl | rfl | rfl | rfl | rfl | rfl | rfl | rfl | rfl | rfl <;> exact plain_dec _ (by decide +kernel)) (plain_dec _ (by decide +kernel)) s.points h2
    rw [h3]
    exact ⟨[t], rfl, by intro x hx; rw [List.mem_singleton.1 hx]; exact drawn_mono h4 (by simp)⟩
  · rw [if_neg (by rw [h]; decide), if_pos h]
    obtain ⟨t, h3, h4⟩ := boxTag_ok "ellipse (2100,1150) (2650,150) 0 0 2 0xff0000 0x1000000 -1 -1" "ellipse".toList "(2100,1150)".toList "(2650,150)".toList
      ["0".toList, "0".toList, "2".toList, "0xff0000".toList, "0x1000000".toList, "-1".toList] "-1".toList (by decide +kernel) (by
        intro w hw
        simp only [List.mem_cons, List.not_mem_nil, or_false] at hw
        rcases hw with rfl | rfl | rfl | rfl | rfl | rfl | rfl | rfl | rfl <;> exact plain_dec _ (by decide +kernel)) (plain_dec _ (by decide +kernel)) s.points h2
    rw [h3]
    exact ⟨[t], rfl, by intro x hx; rw [List.mem_singleton.1 hx]; exact drawn_mono h4 (by simp)⟩
  · rw [if_neg (by rw [h]; decide), if_neg (by rw [h]; decide), if_pos h]
    obtain ⟨t, h4, h5⟩ := arcTag_ok arc s.points h2 (by simp only [scaleX_east, scaleY_north]; exact h3)
    rw [h4]
    exact ⟨[t], rfl, by intro x hx; rw [List.mem_singleton.1 hx]; exact drawn_mono h5 (by simp)⟩

/-! ### Components -/

theorem lookup_dset' {α : Type} (k n : Str) (v : α) : ∀ l : List (Str × α), (dset n v l).lookup k = if k = n then some v else l.lookup k
  | [] => by
    by_cases h : k = n
    · simp [dset, List.lookup, h]
    · have : (k == n) = false := by simpa using h
      simp [dset, List.lookup, h, this]
  | (k', v') :: l => by
    rw [dset]
    by_cases h : k' = n
    · subst h
      rw [if_pos rfl]
      by_cases h2 : k = k'
      · simp [List.lookup, h2]
      · have : (k == k') = false := by simpa using h2
        simp [List.lookup, h2, this]
    · rw [if_neg h]
      by_cases h2 : k = k'
      · subst h2
        simp [List.lookup, h]
      · have : (k == k') = false := by simpa using h2
        simp only [List.lookup, this]
        exact lookup_dset' k n v l

theorem lookup_both {α : Type} (k : Str) (m : List (Str × α)) : ∀ l : List (Str × α), (l ++ m).lookup k = (l.lookup k).or (m.lookup k)
  | [] => rfl
  | p :: l => by
    by_cases h : k = p.1
    · simp [List.lookup, h]
    · have : (k == p.1) = false := by simpa using h
      simp only [List.cons_append, List.lookup, this]
      exact lookup_both k m l

theorem lookup_fold_other {α : Type} (k : Str) : ∀ (l : List (Str × α)) (d : List (Str × α)), (∀ p ∈ l, p.1 ≠ k) →
    (l.foldl (fun d p => dset p.1 p.2 d) d).lookup k = d.lookup k
  | [], _, _ => rfl
  | a :: l, d, h => by
    rw [List.foldl_cons, lookup_fold_other k l _ (fun x hx => h x (List.mem_cons_of_mem _ hx)), lookup_dset', if_neg (Ne.symm (h a (by simp)))]

theorem lookup_fold_last {α : Type} (l1 l2 : List (Str × α)) (k : Str) (v : α) (h : ∀ p ∈ l2, p.1 ≠ k) :
    ((l1 ++ (k, v) :: l2).foldl (fun d p => dset p.1 p.2 d) []).lookup k = some v := by
  rw [List.foldl_append, List.foldl_cons, lookup_fold_other k l2 _ h, lookup_dset', if_pos rfl]

theorem fold_keys {α : Type} : ∀ (l : List (Str × α)) (d : List (Str × α)), (d.map Prod.fst).Nodup →
    ((l.foldl (fun d p => dset p.1 p.2 d) d).map Prod.fst).Nodup ∧ ∀ k, k ∈ (l.foldl (fun d p => dset p.1 p.2 d) d).map Prod.fst ↔ k ∈ d.map Prod.fst ∨ k ∈ l.map Prod.fst
  | [], d, h => ⟨h, by simp⟩
  | a :: l, d, h => by
    obtain ⟨h1, h2⟩ := fold_keys l (dset a.1 a.2 d) (Lemmas.Asc.dset_nodup _ _ _ h)
    refine ⟨h1, fun k => ?_⟩
    rw [List.foldl_cons, h2, Lemmas.Asc.dset_keys]
    split_ifs with hk
    · simp only [List.map_cons, List.mem_cons]
      constructor
      · rintro (h | h)
        · exact .inl h
        · exact .inr (.inr h)
      · rintro (h | rfl | h)
        · exact .inl h
        · exact .inl hk
        · exact .inr h
    · simp only [List.map_cons, List.mem_cons, List.mem_append, List.not_mem_nil, or_false]
      tauto

/-- A tag made for the component `f`. -/
def MadeFor (syms : Str → Option Model.Asy.St) (f : Comp) (t : Tag) : Prop :=
  ∃ st pfx desc, syms f.symbol = some st ∧ st.attrs.lookup "Prefix".toList = some pfx ∧ st.attrs.lookup "Description".toList = some desc ∧
    SymTag t st.pins pfx desc f.reference (valueOf f)

/-- What is needed of a component. -/
def CompOk (symArc : List (Int × Int) → Option ((Int × Int) × (Int × Int) × (Int × Int))) (syms : Str → Option Model.Asy.St) (c : Comp) : Prop :=
  Quotable c.reference ∧ Quotable (valueOf c) ∧ ∃ st pfx desc, syms c.symbol = some st ∧ SymbolOk symArc st pfx desc

theorem find_append_some {l r : List Comp} {P : Comp → Bool} {f : Comp} (h : l.find? P = some f) : (l ++ r).find? P = some f := by
  rw [List.find?_append, h]; rfl

theorem place_ok (symArc : List (Int × Int) → Option ((Int × Int) × (Int × Int) × (Int × Int))) (syms : Str → Option Model.Asy.St) :
    ∀ (cs done : List Comp) (stock : List (Str × Tag)), (∀ c ∈ cs, CompOk symArc syms c) →
    (∀ k t, stock.lookup k = some t → ∃ f, done.find? (fun c => c.symbol = k) = some f ∧ MadeFor syms f t) →
    (∀ k, stock.lookup k = none → done.find? (fun c => c.symbol = k) = none) →
    ∃ ps, place symArc syms stock cs = some ps ∧ List.Forall₂ (fun c p => p.x = scaleX c.x ∧ p.y = scaleY c.y ∧ p.rot = turn c.rot ∧
      ∃ f t, (done ++ cs).find? (fun x => x.symbol = c.symbol) = some f ∧ p.symbol = some t ∧ MadeFor syms f t) cs ps
  | [], done, stock, _, _, _ => ⟨[], rfl, .nil⟩
  | c :: cs, done, stock, h, h1, h2 => by
    obtain ⟨q1, q2, st, pfx, desc, hs, hok⟩ := h c (by simp)
    have hcs : ∀ x ∈ cs, CompOk symArc syms x := fun x hx => h x (List.mem_cons_of_mem _ hx)
    have eq : done ++ c :: cs = (done ++ [c]) ++ cs := by simp
    cases hl : stock.lookup c.symbol with
    | some t =>
      obtain ⟨f, hf, hm⟩ := h1 _ _ hl
      obtain ⟨ps, hp, hq⟩ := place_ok symArc syms cs (done ++ [c]) stock hcs
        (fun k t hk => by obtain ⟨f, a, b⟩ := h1 k t hk; exact ⟨f, find_append_some a, b⟩)
        (fun k hk => by
          rw [List.find?_append, h2 k hk]
          have : c.symbol ≠ k := by rintro rfl; rw [hl] at hk; simp at hk
          simp [this])
      refine ⟨_, by rw [place, hl, hp]; rfl, .cons ⟨rfl, rfl, rfl, f, t, find_append_some hf, rfl, hm⟩ ?_⟩
      rw [eq]
      exact hq
    | none =>
      obtain ⟨t, ht, hm⟩ := toQsch_ok symArc st pfx desc c.reference (valueOf c) hok q1 q2
      have made : MadeFor syms c t := ⟨st, pfx, desc, hs, hok.prefixed, hok.described, hm⟩
      have hf : (done ++ [c]).find? (fun x => x.symbol = c.symbol) = some c := by
        rw [List.find?_append, h2 _ hl]; simp
      obtain ⟨ps, hp, hq⟩ := place_ok symArc syms cs (done ++ [c]) (stock ++ [(c.symbol, t)]) hcs
        (fun k t' hk => by
          rw [lookup_both] at hk
          cases hk2 : stock.lookup k with
          | some u =>
            rw [hk2] at hk
            obtain ⟨f, a, b⟩ := h1 k u hk2
            have : u = t' := by simpa using hk
            subst this
            exact ⟨f, find_append_some a, b⟩
          | none =>
            rw [hk2] at hk
            by_cases e : k = c.symbol
            · subst e
              have : t = t' := by simpa [List.lookup] using hk
              subst this
              exact ⟨c, hf, made⟩
            · have : (k == c.symbol) = false := by simpa using e
              simp [List.lookup, this] at hk)
        (fun k hk => by
          rw [lookup_both] at hk
          cases hk2 : stock.lookup k with
          | some u => rw [hk2] at hk; simp at hk
          | none =>
            rw [hk2] at hk
            rw [List.find?_append, h2 k hk2]
            have : c.symbol ≠ k := by rintro rfl; simp [List.lookup] at hk
            simp [this])
      refine ⟨_, by rw [place, hl]; simp only; rw [hs]; simp only; rw [ht, Option.bind_some, hp]; rfl, .cons ⟨rfl, rfl, rfl, c, t, ?_, rfl, made⟩ ?_⟩
      · rw [eq]; exact find_append_some hf
      · rw [eq]; exact hq

theorem readComp_eq (x y : Int) (o : Nat) (ho : o ≤ 15) (t : Tag) (pins : List Text) (pfx desc ref value : Str) (hr : ref ≠ []) (h : SymTag t pins pfx desc ref value) :
    readComp (.mk ["component".toList, point x y, showNat o, "0".toList] [t]) = some (ref, ⟨.text value, x, y, o * 45, pfx, desc, true,
      pins.map (fun p => (nearest (25 * p.x), nearest (-25 * p.y)))⟩) := by
  obtain ⟨a, b, h1, h2, h3⟩ := h.texts
  have e1 : getItems (.mk ["component".toList, point x y, showNat o, "0".toList] [t]) "symbol".toList = [t] := by
    unfold getItems
    exact filter_all [t] _ (by intro u hu; rw [List.mem_singleton.1 hu]; exact h.head)
  have e2 : pairAt (.mk ["component".toList, point x y, showNat o, "0".toList] [t]) 1 = some (x, y) := by
    unfold pairAt Tag.getAttr
    simp only [Tag.tokens, List.getElem?_cons_succ, List.getElem?_cons_zero, Option.bind_some, get_point]
  have e3 : (Tag.mk ["component".toList, point x y, showNat o, "0".toList] [t]).getAttr 2 = some (.int o) := by
    unfold Tag.getAttr
    simp only [Tag.tokens, List.getElem?_cons_succ, List.getElem?_cons_zero, Option.bind_some, get_nat]
  have e4 : (Tag.mk ["component".toList, point x y, showNat o, "0".toList] [t]).getAttr 3 = some (.int 0) := by
    unfold Tag.getAttr
    simp only [Tag.tokens, List.getElem?_cons_succ, List.getElem?_cons_zero, Option.bind_some]
    decide +kernel
  unfold readComp
  rw [e1, e2, e3, e4]
  have ho' : (0 : Int) ≤ o ∧ (o : Int) ≤ 15 := by omega
  simp only [List.head?_cons, Option.bind_eq_bind, Option.bind_some, h1, h2, h3, h.type, h.desc, h.pins, if_pos ho', Int.toNat_natCast, if_neg (show ¬ (ref = [] ∧ _) from fun hh => hr hh.1)]
  rfl

theorem comp_wf (x y : Int) (o : Nat) (t : Tag) (h : WellFormed t) : WellFormed (.mk ["component".toList, point x y, showNat o, "0".toList] [t]) := by
  refine .node _ _ (by simp) ?_ ?_
  · intro w hw
    simp only [List.mem_cons, List.not_mem_nil, or_false] at hw
    rcases hw with rfl | rfl | rfl | rfl
    · exact plain_token (plain_dec _ (by decide +kernel))
    · exact plain_token (point_plain _ _)
    · exact plain_token (showNat_plain _)
    · exact plain_token (plain_dec _ (by decide +kernel))
  · intro u hu
    rw [List.mem_singleton.1 hu]; exact h

/-- The components of the converted file: what is read for each. -/
def Entry' (syms : Str → Option Model.Asy.St) (all : List Comp) (c : Comp) (e : Str × QPart) : Prop :=
  ∃ f st pfx desc, all.find? (fun x => x.symbol = c.symbol) = some f ∧ syms f.symbol = some st ∧ st.attrs.lookup "Prefix".toList = some pfx ∧
    st.attrs.lookup "Description".toList = some desc ∧
    e = (f.reference, ⟨.text (valueOf f), scaleX c.x, scaleY c.y, turn c.rot / 45 * 45, pfx, desc, true, st.pins.map (fun p => (nearest (25 * p.x), nearest (-25 * p.y)))⟩)

theorem comps_ok (syms : Str → Option Model.Asy.St) (all : List Comp) : ∀ (cs : List Comp) (ps : List Placed),
    (∀ c ∈ all, c.reference ≠ []) → (∀ c ∈ cs, turn c.rot / 45 ≤ 15) →
    List.Forall₂ (fun c p => p.x = scaleX c.x ∧ p.y = scaleY c.y ∧ p.rot = turn c.rot ∧ ∃ f t, all.find? (fun x => x.symbol = c.symbol) = some f ∧ p.symbol = some t ∧ MadeFor syms f t) cs ps →
    ∃ ts es, each compTag ps = some ts ∧ (∀ t ∈ ts, WellFormed t ∧ t.tokens.head? = some "component".toList) ∧ each readComp ts = some es ∧ List.Forall₂ (Entry' syms all) cs es
  | _, _, _, _, .nil => ⟨[], [], rfl, by simp, rfl, .nil⟩
  | c :: cs, p :: ps, ha, hr, .cons ⟨h1, h2, h3, f, t, h4, h5, st, pfx, desc, h6, h7, h8, h9⟩ hs => by
    obtain ⟨ts, es, k1, k2, k3, k4⟩ := comps_ok syms all cs ps ha (fun x hx => hr x (List.mem_cons_of_mem _ hx)) hs
    have hc := readComp_eq p.x p.y (p.rot / 45) (by rw [h3]; exact hr c (by simp)) t st.pins pfx desc f.reference (valueOf f)
      (ha f (List.mem_of_find?_eq_some h4)) h9
    refine ⟨.mk ["component".toList, point p.x p.y, showNat (p.rot / 45), "0".toList] [t] :: ts,
      (f.reference, ⟨.text (valueOf f), p.x, p.y, p.rot / 45 * 45, pfx, desc, true, st.pins.map (fun p => (nearest (25 * p.x), nearest (-25 * p.y)))⟩) :: es, ?_, ?_, ?_, .cons ?_ k4⟩
    · rw [each, compTag_eq, h5, k1]; rfl
    · intro u hu
      rcases List.mem_cons.1 hu with rfl | hu
      · exact ⟨comp_wf _ _ _ _ h9.wf, rfl⟩
      · exact k2 u hu
    · rw [each, hc, k3]; rfl
    · exact ⟨f, st, pfx, desc, h4, h6, h7, h8, by rw [h1, h2, h3]⟩

/-! ### Reading the other tags -/

theorem each_mapIdx {α β γ : Type} (f : β → Option γ) : ∀ (l : List α) (g : Nat → α → β) (h : Nat → α → γ), (∀ i, ∀ a ∈ l, f (g i a) = some (h i a)) →
    each f (l.mapIdx g) = some (l.mapIdx h)
  | [], _, _, _ => rfl
  | a :: l, g, h, hh => by
    rw [List.mapIdx_cons, List.mapIdx_cons, each, hh 0 a (by simp),
      each_mapIdx f l (fun i => g (i + 1)) (fun i => h (i + 1)) (fun i a ha => hh (i + 1) a (List.mem_cons_of_mem _ ha))]
    rfl

theorem labelTags_eq (shared : List Nat) : ∀ (i : Nat) (ts : List Text), (∀ t ∈ ts, t.text.take 2 ≠ ['0', 'x']) → labelTags shared i ts =
    some (ts.mapIdx (fun j t => .mk ["net".toList, point (labelAt shared (i + j) t).1 (labelAt shared (i + j) t).2, "1".toList, "13".toList, "0".toList, quoted t.text] []))
  | _, [], _ => rfl
  | i, t :: ts, h => by
    rw [labelTags, labelTag_eq _ _ (h t (by simp)), labelTags_eq shared (i + 1) ts (fun x hx => h x (List.mem_cons_of_mem _ hx)), List.mapIdx_cons]
    simp only [Option.bind_some, Option.map_some, Nat.add_zero]
    congr 3
    funext j u
    rw [Nat.add_assoc, Nat.add_comm 1 j]

theorem times_iterate (f : Int → Int) : ∀ (n : Nat) (x : Int), times f n x = f^[n] x
  | 0, _ => rfl
  | n + 1, x => by rw [times, times_iterate f n, Function.iterate_succ_apply]

theorem readNet_eq (x y : Int) (s : Str) : readNet (.mk ["net".toList, point x y, "1".toList, "13".toList, "0".toList, quoted s] []) = some (x, y, .text s) := by
  unfold readNet pairAt Tag.getAttr
  simp only [Tag.tokens, List.getElem?_cons_succ, List.getElem?_cons_zero, Option.bind_some, get_point, get_quoted]
  rfl

theorem readWire_eq (a b c d : Int) (s : Str) : readWire (.mk ["wire".toList, point a b, point c d, quoted s] []) = some (a, b, c, d, s) := by
  unfold readWire pairAt textAt Tag.getAttr
  simp only [Tag.tokens, List.getElem?_cons_succ, List.getElem?_cons_zero, Option.bind_some, get_point, get_quoted]
  rfl

theorem readLine_eq (a b c d : Int) (r : List Str) : readLine (.mk (["line".toList, point a b, point c d] ++ r) []) = some (a, b, c, d) := by
  unfold readLine pairAt Tag.getAttr
  simp only [Tag.tokens, List.cons_append, List.getElem?_cons_succ, List.getElem?_cons_zero, Option.bind_some, get_point]
  rfl

theorem readText_eq (x y : Int) (s : Str) (h : ∀ c, s.head? = some c → c ≠ 'ï' ∧ c ≠ '»' ∧ c ≠ '¿') :
    readText (.mk (["text".toList, point x y, "1".toList, "7".toList, "0".toList, "0x1000000".toList, "-1".toList, "-1".toList] ++ [quoted (qualifier ++ s)]) []) =
      some (x, y, s, .directive) := by
  have e1 : getToken "1".toList = some (.int 1) := by decide +kernel
  have e2 : getToken "0".toList = some (.int 0) := by decide +kernel
  have e3 : (qualifier ++ s).dropWhile (fun c => decide (c ∈ qualifier)) = s := by
    cases s with
    | nil => decide
    | cons c s =>
      have := h c rfl
      have hq : decide (c ∈ qualifier) = false := by
        simp only [qualifier, List.mem_cons, List.not_mem_nil, or_false, decide_eq_false_iff_not]
        tauto
      simp only [qualifier, List.cons_append, List.nil_append] at hq ⊢
      rw [List.dropWhile_cons_of_pos (by decide), List.dropWhile_cons_of_pos (by decide), List.dropWhile_cons_of_pos (by decide), List.dropWhile_cons_of_neg (by simpa using hq)]
  have e4 : qualifier.isPrefixOf (qualifier ++ s) = true := by rw [List.isPrefixOf_iff_prefix]; exact List.prefix_append _ _
  unfold readText pairAt textAt Tag.getAttr
  simp only [Tag.tokens, List.cons_append, List.nil_append, List.getElem?_cons_succ, List.getElem?_cons_zero, Option.bind_some, get_point, get_quoted, e1, e2, e3, e4,
    Option.bind_eq_bind]
  rfl

/-! ### The whole file -/

theorem six (a b c d e f : List Tag) (n : Str) : getItems (.mk ["schematic".toList] (a ++ b ++ c ++ d ++ e ++ f)) n =
    a.filter (fun x => x.tokens.head? = some n) ++ b.filter (fun x => x.tokens.head? = some n) ++ c.filter (fun x => x.tokens.head? = some n) ++
    d.filter (fun x => x.tokens.head? = some n) ++ e.filter (fun x => x.tokens.head? = some n) ++ f.filter (fun x => x.tokens.head? = some n) := by
  unfold getItems
  rw [show (Tag.mk ["schematic".toList] (a ++ b ++ c ++ d ++ e ++ f)).items = a ++ b ++ c ++ d ++ e ++ f from rfl,
    List.filter_append, List.filter_append, List.filter_append, List.filter_append, List.filter_append]

theorem valueOf_spec (c : Comp) (v : Str) (h : Value c v) : valueOf c = v := by
  unfold valueOf
  rcases h with h | ⟨h, rfl⟩ <;> rw [h]

theorem nearest_closest (n : Int) : Closest n (nearest n) := by
  unfold Closest nearest
  split_ifs <;> omega

theorem turn_reversed (r : Nat) (h : r ∈ [0, 90, 180, 270, 360, 450, 540, 630]) : turn r / 45 ≤ 15 ∧ turn r / 45 * 45 = reversed r := by
  simp only [List.mem_cons, List.not_mem_nil, or_false] at h
  rcases h with rfl | rfl | rfl | rfl | rfl | rfl | rfl | rfl <;> decide

theorem find_first (s : Sch) (hn : ∀ p ∈ s.comps, p.1 = p.2.reference) (k : Str) (f : Comp) (h : (s.comps.map Prod.snd).find? (fun x => x.symbol = k) = some f) : First s f ∧ f.symbol = k := by
  obtain ⟨h1, before, after, h2, h3⟩ := List.find?_eq_some_iff_append.1 h
  have hk : f.symbol = k := by simpa using h1
  obtain ⟨l1, l2, e1, e2, e3⟩ := List.map_eq_append_iff.1 h2
  obtain ⟨p, l3, rfl, e4, e5⟩ := List.map_eq_cons_iff.1 e3
  have hp : p = (f.reference, f) := by
    have := hn p (by rw [e1]; simp)
    rw [← e4, ← this]
  refine ⟨⟨l1, l3, by rw [e1, hp], fun q hq => ?_⟩, hk⟩
  have := h3 q.2 (by rw [← e2]; exact List.mem_map.2 ⟨q, hq, rfl⟩)
  rw [hk]
  simpa using this

theorem first_find (s : Sch) (f : Comp) (h : First s f) : (s.comps.map Prod.snd).find? (fun x => x.symbol = f.symbol) = some f := by
  obtain ⟨b, a, e, hb⟩ := h
  rw [e, List.map_append, List.find?_append]
  have : (b.map Prod.snd).find? (fun x => x.symbol = f.symbol) = none := by
    rw [List.find?_eq_none]
    intro x hx
    obtain ⟨q, hq, rfl⟩ := List.mem_map.1 hx
    simpa using hb q hq
  rw [this]
  simp

theorem forall2_mem_left {α β : Type} {R : α → β → Prop} {l : List α} {m : List β} (h : List.Forall₂ R l m) : ∀ a ∈ l, ∃ b ∈ m, R a b := by
  induction h with
  | nil => simp
  | cons h _ ih =>
    intro a ha
    rcases List.mem_cons.1 ha with rfl | ha
    · exact ⟨_, by simp, h⟩
    · obtain ⟨b, hb, hr⟩ := ih a ha
      exact ⟨b, List.mem_cons_of_mem _ hb, hr⟩

theorem forall2_mem_right {α β : Type} {R : α → β → Prop} {l : List α} {m : List β} (h : List.Forall₂ R l m) : ∀ b ∈ m, ∃ a ∈ l, R a b := by
  induction h with
  | nil => simp
  | cons h _ ih =>
    intro b hb
    rcases List.mem_cons.1 hb with rfl | hb
    · exact ⟨_, by simp, h⟩
    · obtain ⟨a, ha, hr⟩ := ih b hb
      exact ⟨a, List.mem_cons_of_mem _ ha, hr⟩

theorem forall2_split {α β : Type} {R : α → β → Prop} : ∀ (a : List α) (x : α) (b : List α) (m : List β), List.Forall₂ R (a ++ x :: b) m →
    ∃ m1 y m2, m = m1 ++ y :: m2 ∧ R x y ∧ List.Forall₂ R b m2
  | [], x, b, _, .cons h hs => ⟨[], _, _, rfl, h, hs⟩
  | _ :: a, x, b, _, .cons _ hs => by
    obtain ⟨m1, y, m2, rfl, h1, h2⟩ := forall2_split a x b _ hs
    exact ⟨_ :: m1, y, m2, rfl, h1, h2⟩

theorem same_ref (s : Sch) (hd : (s.comps.map Prod.fst).Nodup) (hn : ∀ p ∈ s.comps, p.1 = p.2.reference) (f g : Comp) (hf : f ∈ s.comps.map Prod.snd) (hg : g ∈ s.comps.map Prod.snd)
    (h : f.reference = g.reference) : f = g := by
  obtain ⟨p, hp, rfl⟩ := List.mem_map.1 hf
  obtain ⟨q, hq, rfl⟩ := List.mem_map.1 hg
  have e : p.1 = q.1 := by rw [hn p hp, hn q hq, h]
  have := List.inj_on_of_nodup_map hd hp hq e
  rw [this]

/-- C79: the converted file can be read, and shows the schematic as specified. -/
theorem C79_converted (symArc schArc : List (Int × Int) → Option ((Int × Int) × (Int × Int) × (Int × Int))) (syms : Str → Option Model.Asy.St) (shared : List Nat) (s : Sch)
    (h : Convertible symArc schArc syms s) : ∃ text l, convertFile symArc schArc syms shared s = some text ∧ loadFile text = some l ∧ Spec.Converted.Shows syms shared s l := by
  have hcs : ∀ c ∈ s.comps.map Prod.snd, CompOk symArc syms c := by
    intro c hc
    obtain ⟨p, hp, rfl⟩ := List.mem_map.1 hc
    obtain ⟨v, hv, hq⟩ := h.values p hp
    exact ⟨(h.references p hp).2, by rw [valueOf_spec _ _ hv]; exact hq, h.symbols p hp⟩
  obtain ⟨ps, p1, p2⟩ := place_ok symArc syms (s.comps.map Prod.snd) [] [] hcs (by simp) (by simp)
  obtain ⟨cs, es, c1, c2, c3, c4⟩ := comps_ok syms (s.comps.map Prod.snd) (s.comps.map Prod.snd) ps
    (by intro c hc; obtain ⟨p, hp, rfl⟩ := List.mem_map.1 hc; exact (h.references p hp).1)
    (by intro c hc; obtain ⟨p, hp, rfl⟩ := List.mem_map.1 hc; exact (turn_reversed _ (h.rotations p hp)).1) p2
  have n1 := labelTags_eq shared 0 s.labels (fun t ht => (h.labels t ht).2)
  have w1 := each_map wireTag _ s.wires (fun l _ => wireTag_eq l)
  have l1 := each_map lineTag _ s.lines (fun l _ => lineTag_eq l)
  have t1 := each_map directiveTag _ s.directives (fun t _ => directiveTag_eq t)
  obtain ⟨ss, s1, s2⟩ := each_all (shapeTag schArc) _ s.shapes (fun x hx => shapeTag_ok schArc x (h.shapes x hx))
  have s3 : ∀ t ∈ ss.flatten, Drawn ["rect".toList, "ellipse".toList, "arc3p".toList] t := by
    intro t ht
    obtain ⟨l, hl, ht⟩ := List.mem_flatten.1 ht
    exact s2 l hl t ht
  simp only [Nat.zero_add] at n1
  generalize hN : s.labels.mapIdx (fun j t => Tag.mk ["net".toList, point (labelAt shared j t).1 (labelAt shared j t).2, "1".toList, "13".toList, "0".toList, quoted t.text] []) = ns at n1
  generalize hW : s.wires.map (fun l => Tag.mk ["wire".toList, point (scaleX l.x1) (scaleY l.y1), point (scaleX l.x2) (scaleY l.y2), quoted "0".toList] []) = ws at w1
  generalize hL : s.lines.map (fun l => Tag.mk (["line".toList, point (scaleX l.x1) (scaleY l.y1), point (scaleX l.x2) (scaleY l.y2), "0".toList, "2".toList, "0xff0000".toList, "-1".toList] ++ ["-1".toList]) []) = ls at l1
  generalize hT : s.directives.map (fun t => Tag.mk (["text".toList, point (scaleX t.x) (scaleY t.y), "1".toList, "7".toList, "0".toList,
    "0x1000000".toList, "-1".toList, "-1".toList] ++ [quoted (qualifier ++ t.text)]) []) = ts at t1
  have hc : convert symArc schArc syms shared s = some (.mk ["schematic".toList] (cs ++ ns ++ ws ++ ls ++ ss.flatten ++ ts)) := by
    unfold convert
    rw [p1, n1, w1, l1, s1, t1]
    simp only [Option.bind_eq_bind, Option.bind_some, c1]
  have nP : ∀ t ∈ ns, WellFormed t ∧ t.tokens.head? = some "net".toList := by
    intro t ht
    rw [← hN] at ht
    obtain ⟨i, hi, rfl⟩ := List.mem_mapIdx.1 ht
    refine ⟨.leaf _ ?_, rfl⟩
    refine leaf_quoted ["net".toList, _, "1".toList, "13".toList, "0".toList] _ ?_ (h.labels _ (List.getElem_mem hi)).1
    intro w hw
    simp only [List.mem_cons, List.not_mem_nil, or_false] at hw
    rcases hw with rfl | rfl | rfl | rfl | rfl <;> first | exact point_plain _ _ | exact plain_dec _ (by decide +kernel)
  have wP : ∀ t ∈ ws, WellFormed t ∧ t.tokens.head? = some "wire".toList := by
    intro t ht
    rw [← hW] at ht
    obtain ⟨l, _, rfl⟩ := List.mem_map.1 ht
    refine ⟨.leaf _ ?_, rfl⟩
    refine leaf_quoted ["wire".toList, _, _] _ ?_ ⟨by decide, colon_none _ (by decide)⟩
    intro w hw
    simp only [List.mem_cons, List.not_mem_nil, or_false] at hw
    rcases hw with rfl | rfl | rfl <;> first | exact point_plain _ _ | exact plain_dec _ (by decide +kernel)
  have lP : ∀ t ∈ ls, WellFormed t ∧ t.tokens.head? = some "line".toList := by
    intro t ht
    rw [← hL] at ht
    obtain ⟨l, _, rfl⟩ := List.mem_map.1 ht
    refine ⟨.leaf _ ?_, rfl⟩
    apply leaf_plain
    · intro w hw
      simp only [List.mem_cons, List.not_mem_nil, or_false] at hw
      rcases hw with rfl | rfl | rfl | rfl | rfl | rfl | rfl <;> first | exact point_plain _ _ | exact plain_dec _ (by decide +kernel)
    · exact plain_dec _ (by decide +kernel)
  have tP : ∀ t ∈ ts, WellFormed t ∧ t.tokens.head? = some "text".toList := by
    intro t ht
    rw [← hT] at ht
    obtain ⟨x, hx, rfl⟩ := List.mem_map.1 ht
    refine ⟨.leaf _ ?_, rfl⟩
    apply leaf_quoted
    · intro w hw
      simp only [List.mem_cons, List.not_mem_nil, or_false] at hw
      rcases hw with rfl | rfl | rfl | rfl | rfl | rfl | rfl | rfl <;> first | exact point_plain _ _ | exact plain_dec _ (by decide +kernel)
    · obtain ⟨q1, q2⟩ := h.texts x hx
      refine ⟨?_, ?_⟩
      · simp only [List.mem_append, not_or]
        exact ⟨by decide, q1⟩
      · rintro ⟨a, b, e⟩
        match a, e with
        | [], e => simp [qualifier] at e
        | [_], e => simp [qualifier] at e
        | [_, _], e => simp [qualifier] at e
        | _ :: _ :: _ :: a, e =>
          simp only [qualifier, List.cons_append, List.nil_append, List.cons.injEq] at e
          exact q2 ⟨a, b, by rw [← e.2.2.2]⟩
  have wf : WellFormed (.mk ["schematic".toList] (cs ++ ns ++ ws ++ ls ++ ss.flatten ++ ts)) := by
    by_cases he : cs ++ ns ++ ws ++ ls ++ ss.flatten ++ ts = []
    · rw [he]
      exact .leaf _ (leaf_plain [] _ (by simp) (plain_dec _ (by decide +kernel)))
    · refine .node _ _ he ?_ ?_
      · intro w hw
        rw [List.mem_singleton.1 hw]
        exact plain_token (plain_dec _ (by decide +kernel))
      · intro t ht
        simp only [List.mem_append] at ht
        rcases ht with ((((ht | ht) | ht) | ht) | ht) | ht
        · exact (c2 t ht).1
        · exact (nP t ht).1
        · exact (wP t ht).1
        · exact (lP t ht).1
        · exact drawn_wf (s3 t ht)
        · exact (tP t ht).1
  have no : ∀ (l : List Tag) (n m : Str), n ≠ m → (∀ t ∈ l, WellFormed t ∧ t.tokens.head? = some n) → l.filter (fun x => x.tokens.head? = some m) = [] := by
    intro l n m hnm hl
    apply filter_none
    intro t ht hh
    rw [(hl t ht).2] at hh
    exact hnm (Option.some.inj hh)
  have yes : ∀ (l : List Tag) (n : Str), (∀ t ∈ l, WellFormed t ∧ t.tokens.head? = some n) → l.filter (fun x => x.tokens.head? = some n) = l :=
    fun l n hl => filter_all l n (fun t ht => (hl t ht).2)
  have nosh : ∀ m : Str, m ∉ ["rect".toList, "ellipse".toList, "arc3p".toList] → ss.flatten.filter (fun x => x.tokens.head? = some m) = [] :=
    fun m hm => filter_none _ _ (fun t ht => drawn_head (s3 t ht) m hm)
  have i1 : getItems (.mk ["schematic".toList] (cs ++ ns ++ ws ++ ls ++ ss.flatten ++ ts)) "net".toList = ns := by
    rw [six, no cs _ _ (by decide) c2, yes ns _ nP, no ws _ _ (by decide) wP, no ls _ _ (by decide) lP, nosh _ (by decide), no ts _ _ (by decide) tP]; simp
  have i2 : getItems (.mk ["schematic".toList] (cs ++ ns ++ ws ++ ls ++ ss.flatten ++ ts)) "wire".toList = ws := by
    rw [six, no cs _ _ (by decide) c2, no ns _ _ (by decide) nP, yes ws _ wP, no ls _ _ (by decide) lP, nosh _ (by decide), no ts _ _ (by decide) tP]; simp
  have i3 : getItems (.mk ["schematic".toList] (cs ++ ns ++ ws ++ ls ++ ss.flatten ++ ts)) "component".toList = cs := by
    rw [six, yes cs _ c2, no ns _ _ (by decide) nP, no ws _ _ (by decide) wP, no ls _ _ (by decide) lP, nosh _ (by decide), no ts _ _ (by decide) tP]; simp
  have i4 : getItems (.mk ["schematic".toList] (cs ++ ns ++ ws ++ ls ++ ss.flatten ++ ts)) "text".toList = ts := by
    rw [six, no cs _ _ (by decide) c2, no ns _ _ (by decide) nP, no ws _ _ (by decide) wP, no ls _ _ (by decide) lP, nosh _ (by decide), yes ts _ tP]; simp
  have i5 : getItems (.mk ["schematic".toList] (cs ++ ns ++ ws ++ ls ++ ss.flatten ++ ts)) "line".toList = ls := by
    rw [six, no cs _ _ (by decide) c2, no ns _ _ (by decide) nP, no ws _ _ (by decide) wP, yes ls _ lP, nosh _ (by decide), no ts _ _ (by decide) tP]; simp
  have r1 : each readNet ns = some (s.labels.mapIdx (fun i t => (east^[1 + shared.count i] t.x, north^[1 + shared.count i] t.y, Attr.text t.text))) := by
    rw [← hN]
    apply each_mapIdx
    intro i t _
    rw [readNet_eq]
    simp only [labelAt, times_iterate]
    rw [show scaleX = east from funext scaleX_east, show scaleY = north from funext scaleY_north]
  have r2 : each readWire ws = some (s.wires.map (fun w => (east w.x1, north w.y1, east w.x2, north w.y2, "0".toList))) := by
    rw [← hW, each_map readWire (fun t => (readWire t).getD default)]
    · rw [List.map_map]
      congr 2
      funext w
      simp only [Function.comp, readWire_eq, Option.getD_some, scaleX_east, scaleY_north]
    · intro t ht
      obtain ⟨l, _, rfl⟩ := List.mem_map.1 ht
      rw [readWire_eq]; rfl
  have r4 : each readText ts = some (s.directives.map (fun t => (east t.x, north t.y, t.text, TextType.directive))) := by
    rw [← hT, each_map readText (fun t => (readText t).getD (0, 0, [], .null))]
    · rw [List.map_map]
      congr 1
      apply List.map_congr_left
      intro t ht
      simp only [Function.comp]
      rw [readText_eq _ _ _ (h.marks t ht)]
      simp only [Option.getD_some, scaleX_east, scaleY_north]
    · intro t ht
      obtain ⟨x, hx, rfl⟩ := List.mem_map.1 ht
      rw [readText_eq _ _ _ (h.marks x hx)]; rfl
  have r5 : each readLine ls = some (s.lines.map (fun w => (east w.x1, north w.y1, east w.x2, north w.y2))) := by
    have key : ∀ l : Line, readLine (Tag.mk (["line".toList, point (scaleX l.x1) (scaleY l.y1), point (scaleX l.x2) (scaleY l.y2), "0".toList, "2".toList, "0xff0000".toList, "-1".toList] ++ ["-1".toList]) []) =
        some (east l.x1, north l.y1, east l.x2, north l.y2) := by
      intro l
      have := readLine_eq (scaleX l.x1) (scaleY l.y1) (scaleX l.x2) (scaleY l.y2) ["0".toList, "2".toList, "0xff0000".toList, "-1".toList, "-1".toList]
      simp only [scaleX_east, scaleY_north] at this ⊢
      exact this
    rw [← hL, each_map readLine (fun t => (readLine t).getD default)]
    · rw [List.map_map]
      congr 2
      funext w
      simp only [Function.comp, key, Option.getD_some]
    · intro t ht
      obtain ⟨l, _, rfl⟩ := List.mem_map.1 ht
      rw [key]; rfl
  refine ⟨fileText (.mk ["schematic".toList] (cs ++ ns ++ ws ++ ls ++ ss.flatten ++ ts)),
    { labels := s.labels.mapIdx (fun i t => (east^[1 + shared.count i] t.x, north^[1 + shared.count i] t.y, Attr.text t.text)), wires := s.wires.map (fun w => (east w.x1, north w.y1, east w.x2, north w.y2, "0".toList)), comps := es.foldl (fun d p => dset p.1 p.2 d) [], directives := s.directives.map (fun t => (east t.x, north t.y, t.text, TextType.directive)), lines := s.lines.map (fun w => (east w.x1, north w.y1, east w.x2, north w.y2)) }, by unfold convertFile; rw [hc]; rfl, ?_, ?_⟩
  · unfold loadFile
    rw [C37_file _ wf]
    simp only
    unfold load
    rw [i1, i2, i3, i4, i5, r1, r2, c3, r4, r5]
    rfl
  · have keys := fold_keys es [] (by simp)
    have entry : ∀ c f, c ∈ s.comps.map Prod.snd → (s.comps.map Prod.snd).find? (fun x => x.symbol = c.symbol) = some f → f ∈ s.comps.map Prod.snd :=
      fun c f _ hf => List.mem_of_find?_eq_some hf
    refine ⟨rfl, rfl, rfl, rfl, ?_, keys.1, ?_⟩
    · intro r
      rw [keys.2 r]
      simp only [List.map_nil, List.not_mem_nil, false_or]
      constructor
      · intro hr
        obtain ⟨e, he, rfl⟩ := List.mem_map.1 hr
        obtain ⟨c, hc, f, st, pfx, desc, hf, _, _, _, rfl⟩ := forall2_mem_right c4 e he
        exact ⟨f, (find_first s h.named _ f hf).1, rfl⟩
      · rintro ⟨c, hc, rfl⟩
        have hmem : c ∈ s.comps.map Prod.snd := by
          obtain ⟨b, a, e, _⟩ := hc
          rw [e]; simp
        obtain ⟨e, he, f, st, pfx, desc, hf, _, _, _, rfl⟩ := forall2_mem_left c4 c hmem
        rw [first_find s c hc] at hf
        obtain rfl := Option.some.inj hf
        exact List.mem_map.2 ⟨_, he, rfl⟩
    · intro first last hfirst hlast hsym st pfx desc k1 k2 k3
      have hf := first_find s first hfirst
      have hfm := List.mem_of_find?_eq_some hf
      obtain ⟨before, after, e, ha⟩ := hlast
      have e' : s.comps.map Prod.snd = before.map Prod.snd ++ last :: after.map Prod.snd := by rw [e]; simp
      have c5 := c4
      rw [e'] at c5
      obtain ⟨m1, y, m2, q1, ⟨f, st', pfx', desc', q2, q3, q4, q5, q6⟩, q7⟩ := forall2_split _ _ _ _ c5
      rw [← e', ← hsym, hf] at q2
      obtain rfl := Option.some.inj q2
      rw [k1] at q3
      obtain rfl := Option.some.inj q3
      rw [k2] at q4
      obtain rfl := Option.some.inj q4
      rw [k3] at q5
      obtain rfl := Option.some.inj q5
      have hl : (es.foldl (fun d p => dset p.1 p.2 d) []).lookup first.reference = some y.2 := by
        rw [q1, q6]
        apply lookup_fold_last
        intro p hp hh
        obtain ⟨c, hc, f', _, _, _, g1, _, _, _, rfl⟩ := forall2_mem_right q7 p hp
        rw [← e'] at g1
        have hg := find_first s h.named _ f' g1
        have := same_ref s h.distinct h.named f' first (List.mem_of_find?_eq_some g1) hfm hh
        obtain ⟨q, hq, rfl⟩ := List.mem_map.1 hc
        apply ha q hq
        rw [← hg.2, this, hsym]
      refine ⟨y.2, hl, ?_⟩
      rw [q6]
      obtain ⟨v, hv, _⟩ := h.values (first.reference, first) (by
        obtain ⟨b, a, e, _⟩ := hfirst
        rw [e]; simp)
      have hrot := (turn_reversed last.rot (h.rotations (last.reference, last) (by rw [e]; simp))).2
      refine ⟨⟨v, hv, by rw [valueOf_spec _ _ hv]⟩, rfl, scaleY_north _, hrot, rfl, rfl, rfl, ?_⟩
      simp only
      rw [List.forall₂_map_right_iff, List.forall₂_same]
      exact fun p _ => ⟨nearest_closest _, nearest_closest _⟩

/-! ### Consequences -/

/-- C79: coordinates that are multiples of 4 are converted exactly, and LTspice's grid of 16 becomes QSPICE's grid of 100, also for the
numbers of pins. -/
theorem C79_grid (k : Int) : east (4 * k) = 25 * k ∧ north (4 * k) = -25 * k ∧ east (16 * k) = 100 * k ∧ north (16 * k) = -100 * k ∧
    (∀ m, Closest (25 * (16 * k)) m ↔ m = 100 * k) ∧ ∀ m, Closest (-25 * (16 * k)) m ↔ m = -100 * k := by
  have h : ∀ k : Int, (25 * (4 * k)).tdiv 4 = 25 * k := by
    intro k
    rw [show 25 * (4 * k) = 4 * (25 * k) by omega]
    exact Int.mul_tdiv_cancel_left _ (by omega)
  unfold east north Closest
  refine ⟨h k, ?_, ?_, ?_, ?_, ?_⟩
  · rw [h k]; omega
  · rw [show 25 * (16 * k) = 25 * (4 * (4 * k)) by omega, h (4 * k)]; omega
  · rw [show 25 * (16 * k) = 25 * (4 * (4 * k)) by omega, h (4 * k)]; omega
  · intro m; omega
  · intro m; omega

/-- C79: if every component has a symbol of its own, all components are found in the converted file under their names, with their values
and at their places. -/
theorem C79_own_symbols (syms : Str → Option Model.Asy.St) (shared : List Nat) (s : Sch) (l : Loaded) (h : Spec.Converted.Shows syms shared s l)
    (hn : ∀ p ∈ s.comps, p.1 = p.2.reference) (hs : (s.comps.map (fun p => p.2.symbol)).Nodup) (c : Comp) (hc : (c.reference, c) ∈ s.comps) (st : Model.Asy.St) (pfx desc : Str)
    (h1 : syms c.symbol = some st) (h2 : st.attrs.lookup "Prefix".toList = some pfx) (h3 : st.attrs.lookup "Description".toList = some desc) :
    (∃ q, l.comps.lookup c.reference = some q ∧ (∃ v, Value c v ∧ q.value = .text v) ∧ q.x = east c.x ∧ q.y = north c.y ∧ q.rot = reversed c.rot) ∧
    ∀ r, r ∈ l.comps.map Prod.fst ↔ r ∈ s.comps.map Prod.fst := by
  have only : ∀ (p : Str × Comp) (before after : List (Str × Comp)), s.comps = before ++ p :: after → (∀ q ∈ before, q.2.symbol ≠ p.2.symbol) ∧ ∀ q ∈ after, q.2.symbol ≠ p.2.symbol := by
    intro p before after e
    rw [e, List.map_append, List.map_cons, List.nodup_append] at hs
    obtain ⟨_, h5, h6⟩ := hs
    refine ⟨fun q hq hh => ?_, fun q hq hh => ?_⟩
    · exact h6 q.2.symbol (List.mem_map.2 ⟨q, hq, rfl⟩) p.2.symbol (by simp) hh
    · exact (List.nodup_cons.1 h5).1 (List.mem_map.2 ⟨q, hq, hh⟩)
  have both : ∀ c : Comp, (c.reference, c) ∈ s.comps → First s c ∧ Last s c := by
    intro c hc
    obtain ⟨b, a, e⟩ := List.append_of_mem hc
    obtain ⟨h5, h6⟩ := only _ _ _ e
    exact ⟨⟨b, a, e, h5⟩, ⟨b, a, e, h6⟩⟩
  constructor
  · obtain ⟨f1, f2⟩ := both c hc
    obtain ⟨q, q1, q2, q3, q4, q5, _⟩ := h.comps c c f1 f2 rfl st pfx desc h1 h2 h3
    exact ⟨q, q1, q2, q3, q4, q5⟩
  · intro r
    rw [h.names r]
    constructor
    · rintro ⟨d, ⟨b, a, e, _⟩, rfl⟩
      rw [e]; simp
    · intro hr
      obtain ⟨p, hp, rfl⟩ := List.mem_map.1 hr
      have : p = (p.2.reference, p.2) := by rw [← hn p hp]
      exact ⟨p.2, (both p.2 (by rw [← this]; exact hp)).1, (hn p hp).symm⟩

/-- C79, limit: everywhere on an end of a wire where there is no label the converted schematic is connected to ground, so that all nets
without labels are one. -/
theorem C79_unnamed_nets_are_ground (syms : Str → Option Model.Asy.St) (shared : List Nat) (s : Sch) (l : Loaded) (h : Spec.Converted.Shows syms shared s l)
    (w : Line) (hw : w ∈ s.wires) (p : Int × Int) (hp : p = (east w.x1, north w.y1) ∨ p = (east w.x2, north w.y2)) (hl : ∀ n ∈ l.labels, (n.1, n.2.1) ≠ p) :
    Model.QNets.netAt l.sheet p = some "0".toList := by
  unfold Model.QNets.netAt
  have h1 : l.sheet.labels.find? (fun x => x.1 = p) = none := by
    rw [List.find?_eq_none]
    intro x hx
    obtain ⟨n, hn, e⟩ := List.mem_filterMap.1 hx
    have : x.1 = (n.1, n.2.1) := by
      revert e
      cases n.2.2 with
      | text t => intro e; simp only [Option.some.injEq] at e; rw [← e]
      | int _ => intro e; simp at e
      | tuple _ => intro e; simp at e
    simp only [decide_eq_true_eq, this]
    exact hl n hn
  rw [h1]
  cases h2 : l.sheet.wires.find? (fun w => w.1 = p || w.2.1 = p) with
  | none =>
    rw [List.find?_eq_none] at h2
    have := h2 ((east w.x1, north w.y1), (east w.x2, north w.y2), "0".toList) (by
      simp only [Loaded.sheet, h.wires, List.map_map]
      exact List.mem_map.2 ⟨w, hw, rfl⟩)
    rcases hp with rfl | rfl <;> simp at this
  | some x =>
    have hx := List.mem_of_find?_eq_some h2
    simp only [Loaded.sheet, h.wires, List.map_map] at hx
    obtain ⟨w', _, rfl⟩ := List.mem_map.1 hx
    rfl

/-! ### Samples -/

/-- A resistor symbol. -/
def res : Model.Asy.St where
  symbolType := some "CELL".toList
  attrs := [("Value".toList, "R".toList), ("Prefix".toList, "R".toList), ("Description".toList, "A resistor".toList)]
  pins := [{ x := 16, y := 16, text := "PinName=A;SpiceOrder=1;".toList, size := 0, type := .pin }, { x := 16, y := 96, text := "PinName=B;SpiceOrder=2;".toList, size := 0, type := .pin }]
  windows := [{ x := 36, y := 40, text := "0".toList, size := 2, type := .attribute }, { x := 36, y := 0, text := "3".toList, size := 2, type := .attribute }]
  lines := [{ x1 := 16, y1 := 88, x2 := 16, y2 := 96 }]
  shapes := [{ name := "RECTANGLE".toList, points := [(0, 0), (32, 64)] }]

def syms (n : Str) : Option Model.Asy.St := if n = "res".toList then some res else none

/-- Two resistors in series between two labels, the second label being a port, with a directive and a comment. -/
def divider : Sch where
  wires := [{ x1 := 112, y1 := 96, x2 := 112, y2 := 160 }]
  labels := [{ x := 112, y := 16, text := "in".toList, type := .label }, { x := 112, y := 240, text := "out".toList, type := .label }]
  comps := [("R1".toList, { symbol := "res".toList, x := 96, y := 0, rot := 0, reference := "R1".toList, attrs := [("Value".toList, .str "1k".toList)] }),
    ("R2".toList, { symbol := "res".toList, x := 96, y := 144, rot := 90, reference := "R2".toList, attrs := [("Value".toList, .str "2k".toList)] })]
  directives := [{ x := 0, y := 32, text := ".op".toList, type := .directive }, { x := 0, y := 48, text := "note".toList, type := .comment }]
  lines := [{ x1 := 1, y1 := 2, x2 := 3, y2 := 4, pattern := "2".toList }]
  shapes := [{ name := "CIRCLE".toList, points := [(0, 0), (16, 16)] }]

theorem C79_divider_convertible : Convertible (fun _ => none) (fun _ => none) syms divider := by
  have q : ∀ s : Str, ('"' ∉ s ∧ ¬ contains [':', ' '] s = true) → Quotable s := fun s h => ⟨h.1, by rw [← Lemmas.Qsch.contains_iff _ _ (by simp)]; exact h.2⟩
  have ok : SymbolOk (fun _ => none) res "R".toList "A resistor".toList := by
    refine ⟨by decide +kernel, ⟨by decide +kernel, colon_none _ (by decide)⟩, ⟨'R', [], by decide, by decide⟩, by decide +kernel, ⟨by decide +kernel, colon_none _ (by decide)⟩, rfl, ?_, ?_⟩
    · intro p hp
      simp only [res, List.mem_cons, List.not_mem_nil, or_false] at hp
      rcases hp with rfl | rfl
      · exact ⟨"A".toList, ⟨[], [("SpiceOrder".toList, "1".toList)], by decide +kernel, by decide +kernel, by decide +kernel⟩, q _ (by decide)⟩
      · exact ⟨"B".toList, ⟨[], [("SpiceOrder".toList, "2".toList)], by decide +kernel, by decide +kernel, by decide +kernel⟩, q _ (by decide)⟩
    · intro s hs
      simp only [res, List.mem_cons, List.not_mem_nil, or_false] at hs
      subst hs
      exact .inl ⟨.inl rfl, by decide⟩
  refine ⟨by decide +kernel, by decide +kernel, ?_, ?_, by decide +kernel, ?_, ?_, ?_, ?_, ?_⟩
  · intro p hp
    simp only [divider, List.mem_cons, List.not_mem_nil, or_false] at hp
    rcases hp with rfl | rfl <;> exact ⟨by decide, q _ (by decide)⟩
  · intro p hp
    simp only [divider, List.mem_cons, List.not_mem_nil, or_false] at hp
    rcases hp with rfl | rfl
    · exact ⟨"1k".toList, .inl (by decide +kernel), q _ (by decide)⟩
    · exact ⟨"2k".toList, .inl (by decide +kernel), q _ (by decide)⟩
  · intro p hp
    simp only [divider, List.mem_cons, List.not_mem_nil, or_false] at hp
    rcases hp with rfl | rfl <;> exact ⟨res, "R".toList, "A resistor".toList, rfl, ok⟩
  · intro t ht
    simp only [divider, List.mem_cons, List.not_mem_nil, or_false] at ht
    rcases ht with rfl | rfl <;> exact ⟨q _ (by decide), by decide⟩
  · intro t ht
    simp only [divider, List.mem_cons, List.not_mem_nil, or_false] at ht
    rcases ht with rfl | rfl <;> exact q _ (by decide)
  · intro t ht c hc
    simp only [divider, List.mem_cons, List.not_mem_nil, or_false] at ht
    rcases ht with rfl | rfl <;> (simp at hc; subst hc; decide)
  · intro x hx
    simp only [divider, List.mem_cons, List.not_mem_nil, or_false] at hx
    subst hx
    exact .inl ⟨.inr rfl, by decide⟩

/-- C79, limits on a sample: of two resistors only R1 is left, with its value at the place of R2; the label of the port is not at the end
of the resistor any more; the comment is an instruction. -/
theorem C79_divider : (convertFile (fun _ => none) (fun _ => none) syms [1] divider).bind loadFile = some {
    labels := [(700, -100, .text "in".toList), (4375, 9375, .text "out".toList)], wires := [(700, -600, 700, -1000, "0".toList)],
    comps := [("R1".toList, ⟨.text "1k".toList, 600, -900, 270, "R".toList, "A resistor".toList, true, [(100, -100), (100, -600)]⟩)],
    directives := [(0, -200, ".op".toList, .directive), (0, -300, "note".toList, .directive)], lines := [(6, -12, 18, -25)] } := by decide +kernel

/-- C79, limit: a schematic with a component whose symbol file is not found is converted without an error, but the result cannot be read. -/
theorem C79_symbol_not_found : ∃ text, convertFile (fun _ => none) (fun _ => none) (fun _ => none) [] divider = some text ∧ loadFile text = none := by
  refine ⟨(convertFile (fun _ => none) (fun _ => none) (fun _ => none) [] divider).get (by decide +kernel), by simp, ?_⟩
  decide +kernel

/-- C79, limits: a symbol without prefix or description, or with a third window, stops the conversion with an exception. -/
theorem C79_symbol_refused (arc : List (Int × Int) → Option ((Int × Int) × (Int × Int) × (Int × Int))) (st : Model.Asy.St) (ref value : Str)
    (h : st.attrs.lookup "Prefix".toList = none ∨ st.attrs.lookup "Description".toList = none ∨ 2 < st.windows.length) : toQsch arc st ref value = none := by
  have short : ∀ (ws : List Text), 2 < ws.length → symTexts ws [ref, value] = none := by
    intro ws hw
    match ws, hw with
    | a :: b :: c :: r, _ =>
      simp only [symTexts]
      cases tag _ with
      | none => rfl
      | some t =>
        cases tag _ with
        | none => rfl
        | some t => rfl
  unfold toQsch
  rcases h with h | h | h
  · rw [h]; rfl
  · rw [h]
    cases st.attrs.lookup "Prefix".toList with
    | none => rfl
    | some p =>
      simp only [Option.bind_eq_bind, Option.bind_some]
      cases p.head? <;> rfl
  · rw [short _ h]
    simp

end Props.Convert
