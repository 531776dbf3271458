import Verif.Spec.SymbolFile
import Verif.Lemmas.Asc
import Verif.Lemmas.AscLines
import Mathlib.Tactic.Tauto
import Mathlib.Data.List.Forall2
import Mathlib.Data.List.TakeWhile

/-! C78: LTspice symbol files. -/
namespace Props.Asy
open Model.Asy Model.PyStr Lemmas.PyStr Lemmas.Asc
open Model.Asc (Text Line Shape words alignSet dset linesOf)
open Spec.SymbolFile hiding Str attrs windows lines shapes

/-! ### A line -/

theorem apart {a b s : Str} (h : a <+: s) (hb : ¬ a <+: b) (hc : ¬ b <+: a) : ¬ b <+: s := fun h' =>
  (List.prefix_or_prefix_of_prefix h h').elim hb hc

theorem chain (A B C D E F G H I J K : Prop) [Decidable A] [Decidable B] [Decidable C] [Decidable D] [Decidable E] [Decidable F] [Decidable G] [Decidable H] [Decidable I] [Decidable J] [Decidable K]
    (hp : E → F) (hAB : A → ¬ B) (hAC : A → ¬ C) (hAD : A → ¬ D) (hAF : A → ¬ F) (hAG : A → ¬ G) (hAH : A → ¬ H) (hAI : A → ¬ I) (hAJ : A → ¬ J) (hAK : A → ¬ K) (hBC : B → ¬ C) (hBD : B → ¬ D) (hBF : B → ¬ F) (hBG : B → ¬ G) (hBH : B → ¬ H) (hBI : B → ¬ I) (hBJ : B → ¬ J) (hBK : B → ¬ K) (hCD : C → ¬ D) (hCF : C → ¬ F) (hCG : C → ¬ G) (hCH : C → ¬ H) (hCI : C → ¬ I) (hCJ : C → ¬ J) (hCK : C → ¬ K) (hDF : D → ¬ F) (hDG : D → ¬ G) (hDH : D → ¬ H) (hDI : D → ¬ I) (hDJ : D → ¬ J) (hDK : D → ¬ K) (hFG : F → ¬ G) (hFH : F → ¬ H) (hFI : F → ¬ I) (hFJ : F → ¬ J) (hFK : F → ¬ K) (hGH : G → ¬ H) (hGI : G → ¬ I) (hGJ : G → ¬ J) (hGK : G → ¬ K) (hHI : H → ¬ I) (hHJ : H → ¬ J) (hHK : H → ¬ K) (hIJ : I → ¬ J) (hIK : I → ¬ K) (hJK : J → ¬ K) (k : Kind)
    (hk : k = if A then .window else if B then .symattr else if C then .version else if D then .symbolType else if E then .pinattr else if F then .pin
      else if G ∨ H ∨ I then .figure else if J then .arc else if K then .text else .unknown) :
    (k = .window ↔ A) ∧ (k = .symattr ↔ B) ∧ (k = .version ↔ C) ∧ (k = .symbolType ↔ D) ∧ (k = .pinattr ↔ E) ∧ (k = .pin ↔ F ∧ ¬ E) ∧
    (k = .figure ↔ G ∨ H ∨ I) ∧ (k = .arc ↔ J) ∧ (k = .text ↔ K) := by
  subst hk
  by_cases A
  · simp_all
  by_cases B
  · simp_all
  by_cases C
  · simp_all
  by_cases D
  · simp_all
  by_cases F
  · by_cases E <;> simp_all
  by_cases G
  · simp_all
  by_cases H
  · simp_all
  by_cases I
  · simp_all
  by_cases J
  · simp_all
  by_cases K <;> simp_all

theorem kind_iff (s : Str) :
    (kind s = .window ↔ "WINDOW".toList <+: s) ∧ (kind s = .symattr ↔ "SYMATTR".toList <+: s) ∧ (kind s = .version ↔ "Version".toList <+: s) ∧
    (kind s = .symbolType ↔ "SymbolType ".toList <+: s) ∧ (kind s = .pinattr ↔ "PINATTR".toList <+: s) ∧
    (kind s = .pin ↔ "PIN".toList <+: s ∧ ¬ "PINATTR".toList <+: s) ∧
    (kind s = .figure ↔ "LINE".toList <+: s ∨ "RECTANGLE".toList <+: s ∨ "CIRCLE".toList <+: s) ∧
    (kind s = .arc ↔ "ARC".toList <+: s) ∧ (kind s = .text ↔ "TEXT ".toList <+: s) := by
  apply chain
  · exact fun h => List.IsPrefix.trans (by decide) h
  all_goals first | exact fun h => apart h (by decide) (by decide) | skip
  unfold kind
  simp only [List.isPrefixOf_iff_prefix]


theorem words_blanks (g : Str) (hg : ∀ c ∈ g, isSpace c = true) (r : Str) : words (g ++ r) = words r := by
  unfold words
  induction g with
  | nil => rfl
  | cons c g ih =>
    rw [List.cons_append, Model.Asc.wordsAux, if_pos (hg c List.mem_cons_self), if_pos rfl]
    exact ih (fun d hd => hg d (List.mem_cons_of_mem _ hd))

theorem words_first (w r : Str) (hw : Spec.SymbolFile.Word w) (hr : ∀ c, r.head? = some c → isSpace c = true) : words (w ++ r) = w :: words r := by
  cases r with
  | nil => rw [List.append_nil, words_word hw]; rfl
  | cons c r =>
    have hc := hr c rfl
    unfold words
    rw [wordsAux_blank w r [] c hc, wordsAux_word w [] hw.2]
    simp [hw.1, Model.Asc.wordsAux, hc]

/-- A text is blank, or it has a first word. -/
theorem peel (s : Str) : (Blank s ∧ lstrip s = [] ∧ words s = []) ∨ ∃ g w r : Str, s = g ++ (w ++ r) ∧ Blank g ∧ Spec.SymbolFile.Word w ∧
    (∀ c, r.head? = some c → isSpace c = true) ∧ lstrip s = w ++ r ∧ (w ++ r).takeWhile (fun c => !isSpace c) = w ∧
    (w ++ r).dropWhile (fun c => !isSpace c) = r ∧ words s = w :: words r := by
  have hsplit := (List.takeWhile_append_dropWhile (p := isSpace) (l := s))
  have hg : ∀ c ∈ s.takeWhile isSpace, isSpace c = true := fun c hc => List.mem_takeWhile_imp hc
  cases hl : s.dropWhile isSpace with
  | nil =>
    left
    rw [hl, List.append_nil] at hsplit
    rw [hsplit] at hg
    refine ⟨hg, hl, ?_⟩
    rw [← List.append_nil s, words_blanks s hg]; rfl
  | cons c t =>
    right
    have hc : isSpace c = false := dropWhile_head_false isSpace s c (by rw [hl]; rfl)
    have hl' : lstrip s = c :: t := hl
    refine ⟨s.takeWhile isSpace, (c :: t).takeWhile (fun c => !isSpace c), (c :: t).dropWhile (fun c => !isSpace c), ?_, hg, ⟨?_, ?_⟩, ?_, ?_, ?_, ?_, ?_⟩
    · rw [List.takeWhile_append_dropWhile, ← hl, hsplit]
    · simp [List.takeWhile, hc]
    · intro d hd
      simpa using List.mem_takeWhile_imp hd
    · intro d hd
      simpa using dropWhile_head_false _ _ d hd
    · rw [List.takeWhile_append_dropWhile, hl']
    · rw [List.takeWhile_append_dropWhile]
    · rw [List.takeWhile_append_dropWhile]
    · conv_lhs => rw [← hsplit, hl, words_blanks _ hg, ← List.takeWhile_append_dropWhile (p := fun c => !isSpace c) (l := c :: t)]
      apply words_first
      · refine ⟨by simp [List.takeWhile, hc], ?_⟩
        intro d hd
        simpa using List.mem_takeWhile_imp hd
      · intro d hd
        simpa using dropWhile_head_false _ _ d hd

theorem cut_word (w r : Str) (hw : Spec.SymbolFile.Word w) (hr : ∀ c, r.head? = some c → isSpace c = true) :
    (w ++ r).takeWhile (fun c => !isSpace c) = w ∧ (w ++ r).dropWhile (fun c => !isSpace c) = r := by
  have h1 : ∀ c ∈ w, (!isSpace c) = true := fun c hc => by simp [hw.2 c hc]
  cases r with
  | nil => simp only [List.append_nil]; exact ⟨List.takeWhile_eq_self_iff.2 h1, List.dropWhile_eq_nil_iff.2 h1⟩
  | cons c r =>
    have := hr c rfl
    exact ⟨by rw [List.takeWhile_append_of_pos h1]; simp [this], by rw [List.dropWhile_append_of_pos h1]; simp [this]⟩

theorem lstrip_blanks (g : Str) (hg : Blank g) (r : Str) : lstrip (g ++ r) = lstrip r := by
  unfold lstrip
  exact List.dropWhile_append_of_pos hg

theorem lstrip_word (w r : Str) (hw : Spec.SymbolFile.Word w) : lstrip (w ++ r) = w ++ r := by
  apply lstrip_head
  intro c hc
  cases w with
  | nil => exact absurd rfl hw.1
  | cons d w => simp only [List.cons_append, List.head?_cons, Option.some.injEq] at hc; exact hc ▸ hw.2 d List.mem_cons_self

theorem blank_head {g : Str} (hg : Blank g) (hne : g ≠ []) (r : Str) : ∀ c, (g ++ r).head? = some c → isSpace c = true := by
  cases g with
  | nil => exact absurd rfl hne
  | cons d g => intro c hc; simp only [List.cons_append, List.head?_cons, Option.some.injEq] at hc; exact hc ▸ hg d List.mem_cons_self

theorem blank_nil {g : Str} (hg : Blank g) (r : Str) (hr : r = []) : ∀ c, (g ++ r).head? = some c → isSpace c = true := by
  subst hr
  intro c hc
  rw [List.append_nil] at hc
  exact hg c (List.mem_of_mem_head? hc)

/-- `split(maxsplit=2)` -/
theorem splitTwice_spec (s : Str) : (splitTwice s = [] ∧ words s = []) ∨ (∃ a, splitTwice s = [a] ∧ words s = [a]) ∨
    (∃ a b, splitTwice s = [a, b] ∧ words s = [a, b]) ∨
    ∃ a b t, splitTwice s = [a, b, t] ∧ Headed s a b t ∧ ∃ c ws, words s = a :: b :: c :: ws := by
  rcases peel s with ⟨_, h1, h2⟩ | ⟨g, w, r, e, hg, hw, hr, hl, ht, hd, hws⟩
  · left
    exact ⟨by unfold splitTwice; simp [h1], h2⟩
  have hwr : w ++ r ≠ [] := by simp [hw.1]
  rcases peel r with ⟨_, h1, h2⟩ | ⟨g', w', r', e', hg', hw', hr', hl', ht', hd', hws'⟩
  · right; left
    exact ⟨w, by unfold splitTwice; simp [hl, hd, ht, h1, hw.1], by rw [hws, h2]⟩
  have hwr' : w' ++ r' ≠ [] := by simp [hw'.1]
  have hg'ne : g' ≠ [] := by
    rintro rfl
    cases w' with
    | nil => exact absurd rfl hw'.1
    | cons c w' =>
      have := hr c (by rw [e']; rfl)
      rw [hw'.2 c List.mem_cons_self] at this
      simp at this
  rcases peel r' with ⟨_, h1, h2⟩ | ⟨g2, w2, r2, e2, hg2, hw2, hr2, hl2, ht2, hd2, hws2⟩
  · right; right; left
    exact ⟨w, w', by unfold splitTwice; simp [hl, hd, ht, hl', hd', ht', h1, hw.1, hw'.1], by rw [hws, hws', h2]⟩
  · right; right; right
    have hg2ne : g2 ≠ [] := by
      rintro rfl
      cases w2 with
      | nil => exact absurd rfl hw2.1
      | cons c w2 =>
        have := hr' c (by rw [e2]; rfl)
        rw [hw2.2 c List.mem_cons_self] at this
        simp at this
    refine ⟨w, w', w2 ++ r2, by unfold splitTwice; simp [hl, hd, ht, hl', hd', ht', hl2, hw.1, hw'.1, hw2.1], ⟨⟨g, g', g2, ?_, hg, ⟨hg', hg'ne⟩, hg2, hg2ne⟩, hw, hw', ?_⟩, w2, words r2, ?_⟩
    · rw [e, e', e2]
    · cases w2 with
      | nil => exact absurd rfl hw2.1
      | cons c w2 => exact ⟨c, w2 ++ r2, rfl, hw2.2 c List.mem_cons_self⟩
    · rw [hws, hws', hws2]

theorem splitTwice_headed {s a b t : Str} (h : Headed s a b t) : splitTwice s = [a, b, t] := by
  obtain ⟨⟨g0, g1, g2, e, hg0, ⟨hg1, hn1⟩, hg2, hn2⟩, ha, hb, ⟨c, r, ht, hc⟩⟩ := h
  have h1 : lstrip s = a ++ (g1 ++ (b ++ (g2 ++ t))) := by rw [e, lstrip_blanks _ hg0, lstrip_word _ _ ha]
  obtain ⟨t1, d1⟩ := cut_word a (g1 ++ (b ++ (g2 ++ t))) ha (blank_head hg1 hn1 _)
  have h2 : lstrip (g1 ++ (b ++ (g2 ++ t))) = b ++ (g2 ++ t) := by rw [lstrip_blanks _ hg1, lstrip_word _ _ hb]
  obtain ⟨t2, d2⟩ := cut_word b (g2 ++ t) hb (blank_head hg2 hn2 _)
  have h3 : lstrip (g2 ++ t) = t := by
    rw [lstrip_blanks _ hg2, ht]
    apply lstrip_head
    intro d hd
    simp only [List.head?_cons, Option.some.injEq] at hd
    exact hd ▸ hc
  have hne : t ≠ [] := by rw [ht]; simp
  unfold splitTwice
  simp only [h1, t1, d1, h2, t2, d2, h3]
  simp [ha.1, hb.1, hne]


/-- The first word of a text that starts with a keyword starts with it. -/
theorem keyword_word {k s w : Str} {ws : List Str} (hk : Spec.SymbolFile.Word k) (h : k <+: s) (hw : words s = w :: ws) : k <+: w := by
  rcases peel s with ⟨_, _, h2⟩ | ⟨g, w', r, e, hg, hw', hr, _, _, _, hws⟩
  · rw [h2] at hw; simp at hw
  rw [hws] at hw
  simp only [List.cons.injEq] at hw
  obtain ⟨rfl, _⟩ := hw
  obtain ⟨t, ht⟩ := h
  cases k with
  | nil => exact absurd rfl hk.1
  | cons c k =>
    have hgn : g = [] := by
      cases g with
      | nil => rfl
      | cons d g =>
        rw [e, List.cons_append, List.cons_append] at ht
        simp only [List.cons.injEq] at ht
        have := hg d List.mem_cons_self
        rw [← ht.1, hk.2 c List.mem_cons_self] at this
        simp at this
    subst hgn
    rw [List.nil_append] at e
    rw [e] at ht
    rcases List.append_eq_append_iff.1 ht with ⟨as, h1, _⟩ | ⟨bs, h1, h2⟩
    · exact ⟨as, h1.symm⟩
    · cases bs with
      | nil => exact ⟨[], by simpa using h1⟩
      | cons d bs =>
        exfalso
        have := hr d (by rw [h2]; rfl)
        rw [hk.2 d (by rw [h1]; simp)] at this
        simp at this

theorem keyword_some {k s : Str} (hk : Spec.SymbolFile.Word k) (h : k <+: s) : ∃ w ws, words s = w :: ws := by
  rcases peel s with ⟨hb, _, h2⟩ | ⟨g, w', r, e, hg, hw', hr, _, _, _, hws⟩
  · cases k with
    | nil => exact absurd rfl hk.1
    | cons c k =>
      obtain ⟨t, ht⟩ := h
      have := hb c (by rw [← ht]; simp)
      rw [hk.2 c List.mem_cons_self] at this
      simp at this
  · exact ⟨_, _, hws⟩

/-! ### The entry of a line -/

def figureEntry (s : Str) : Option Entry :=
  if (words s).length = 6 ∨ (words s).length = 7 then
    (parseInt ((words s).getD 2 [])).bind fun x1 => (parseInt ((words s).getD 3 [])).bind fun y1 =>
    (parseInt ((words s).getD 4 [])).bind fun x2 => (parseInt ((words s).getD 5 [])).bind fun y2 =>
    if "LINE".toList.isPrefixOf s then some (.line { x1, y1, x2, y2, pattern := (words s).getD 6 [] })
    else if (words s).getD 0 [] = "RECTANGLE".toList ∨ (words s).getD 0 [] = "CIRCLE".toList then
      some (.shape { name := (words s).getD 0 [], points := [(x1, y1), (x2, y2)], pattern := (words s).getD 6 [] })
    else some .nothing
  else none

def arcEntry (s : Str) : Option Entry :=
  if (words s).length = 10 ∨ (words s).length = 11 then
    (parseInt ((words s).getD 2 [])).bind fun x1 => (parseInt ((words s).getD 3 [])).bind fun y1 =>
    (parseInt ((words s).getD 4 [])).bind fun x2 => (parseInt ((words s).getD 5 [])).bind fun y2 =>
    (parseInt ((words s).getD 6 [])).bind fun x3 => (parseInt ((words s).getD 7 [])).bind fun y3 =>
    (parseInt ((words s).getD 8 [])).bind fun x4 => (parseInt ((words s).getD 9 [])).bind fun y4 =>
    some (.shape { name := "ARC".toList, points := [(x1, y1), (x2, y2), (x3, y3), (x4, y4)], pattern := (words s).getD 10 [] })
  else none

def windowEntry (s : Str) : Option Entry :=
  match words s with
  | [_, num, px, py, al, sz] =>
    (parseInt px).bind fun x => (parseInt py).bind fun y => (parseInt sz).bind fun size =>
    (alignSet { x, y, text := num, size, type := .attribute } al).map .window
  | _ => none

def noteEntry (s : Str) : Option Entry :=
  match words s with
  | [_, px, py, al, sz, t] =>
    (parseInt px).bind fun x => (parseInt py).bind fun y => (parseInt sz).bind fun size =>
    (alignSet { x, y, text := t, size, type := .comment } al).map .window
  | _ => some .nothing

def pinEntry (s : Str) : Option Entry :=
  match words s with
  | [_, px, py, j, off] =>
    (parseInt px).bind fun x => (parseInt py).bind fun y => (parseInt off).map fun size =>
    .pin (justify { x, y, text := [], size, type := .pin } j)
  | _ => none

def attrEntry (s : Str) : Entry :=
  match splitTwice s with
  | [_, r, t] => .attr r (attrText r t)
  | [_, r] => .attr r []
  | _ => .nothing

def versionEntry (s : Str) : Option Entry :=
  match words s with
  | [_, v] => if v = "4".toList ∨ v = "4.0".toList ∨ v = "4.1".toList then some (.version v) else none
  | _ => none

def pinAttrEntry (s : Str) : Option Entry :=
  match splitOn ' ' s with
  | [_, n, v] => some (.pinAttr n (strip v))
  | _ => none

def entry (s : Str) : Option Entry :=
  match kind s with
  | .window => windowEntry s
  | .symattr => some (attrEntry s)
  | .version => versionEntry s
  | .symbolType => some (.type (strip (s.drop 11)))
  | .pinattr => pinAttrEntry s
  | .pin => pinEntry s
  | .figure => figureEntry s
  | .arc => arcEntry s
  | .text => noteEntry s
  | .unknown => none

/-- What an entry does to the reader's state. -/
def apply (st : St) : Entry → Option St
  | .window t => some { st with windows := st.windows ++ [t] }
  | .attr n t => some { st with attrs := dset n t st.attrs }
  | .version v => some { st with version := v }
  | .type t => some { st with symbolType := some t }
  | .pin p => some { st with pins := st.pins ++ st.pin.toList, pin := some p }
  | .pinAttr n v => st.pin.map (fun p => { st with pin := some { p with text := p.text ++ n ++ '=' :: v ++ [';'] } })
  | .line l => some { st with lines := st.lines ++ [l] }
  | .shape l => some { st with shapes := st.shapes ++ [l] }
  | .nothing => some st

theorem store_apply (st : St) (n t : Str) : some (store st n t) = apply st (.attr n (attrText n t)) := rfl

theorem upper_nil : attrText n [] = [] := by
  unfold attrText
  split_ifs <;> rfl

theorem step_entry (st : St) (s : Str) : step st s = (entry s).bind (apply st) := by
  have hk := kind_iff s
  unfold step entry
  cases k : kind s <;> simp only
  case window =>
    unfold readWindow windowEntry
    generalize words s = ws
    match ws with
    | [_, num, px, py, al, sz] =>
      simp only [bind]
      cases parseInt px
      · rfl
      cases parseInt py
      · rfl
      cases parseInt sz
      · rfl
      simp only [Option.bind]
      cases alignSet _ al <;> rfl
    | [] => rfl
    | [_] => rfl
    | [_, _] => rfl
    | [_, _, _] => rfl
    | [_, _, _, _] => rfl
    | [_, _, _, _, _] => rfl
    | _ :: _ :: _ :: _ :: _ :: _ :: _ :: _ => rfl
  case symattr =>
    unfold readAttr attrEntry
    generalize splitTwice s = ws
    match ws with
    | [_, r, t] => rfl
    | [_, r] =>
      show some (store st r []) = _
      rw [store_apply, upper_nil]; rfl
    | [_] => rfl
    | [] => rfl
    | _ :: _ :: _ :: _ :: _ => rfl
  case version =>
    unfold readVersion versionEntry
    generalize words s = ws
    match ws with
    | [_, v] => simp only; split_ifs <;> rfl
    | [] => rfl
    | [_] => rfl
    | _ :: _ :: _ :: _ => rfl
  case symbolType => rfl
  case pinattr =>
    unfold readPinAttr pinAttrEntry
    generalize splitOn ' ' s = ws
    cases hp : st.pin with
    | none =>
      match ws with
      | [_, b, c] => simp [apply, hp]
      | [] => rfl
      | [_] => rfl
      | [_, _] => rfl
      | _ :: _ :: _ :: _ :: _ => rfl
    | some p =>
      match ws with
      | [_, b, c] => simp [apply, hp]
      | [] => rfl
      | [_] => rfl
      | [_, _] => rfl
      | _ :: _ :: _ :: _ :: _ => rfl
  case pin =>
    unfold readPin pinEntry
    generalize words s = ws
    match ws with
    | [_, px, py, j, off] =>
      simp only [bind]
      cases parseInt px
      · rfl
      cases parseInt py
      · rfl
      cases parseInt off <;> rfl
    | [] => rfl
    | [_] => rfl
    | [_, _] => rfl
    | [_, _, _] => rfl
    | [_, _, _, _] => rfl
    | _ :: _ :: _ :: _ :: _ :: _ :: _ => rfl
  case figure =>
    unfold draw Model.Asc.readFigure figureEntry
    simp only
    by_cases h : (words s).length = 6 ∨ (words s).length = 7
    · rw [if_pos h, if_pos h]
      simp only [bind, Option.bind]
      cases parseInt _ <;> simp only [Option.map_none]
      cases parseInt _ <;> simp only [Option.map_none]
      cases parseInt _ <;> simp only [Option.map_none]
      cases parseInt _ <;> simp only [Option.map_none]
      by_cases hl : "LINE".toList.isPrefixOf s = true
      · obtain ⟨w, ws, hw⟩ := keyword_some (k := "LINE".toList) ⟨by decide, by decide⟩ (List.isPrefixOf_iff_prefix.1 hl)
        have hkw := keyword_word (k := "LINE".toList) ⟨by decide, by decide⟩ (List.isPrefixOf_iff_prefix.1 hl) hw
        have hn : ¬ ((words s).getD 0 [] = "RECTANGLE".toList ∨ (words s).getD 0 [] = "CIRCLE".toList) := by
          rw [hw]
          rintro (h' | h') <;> (rw [List.getD_cons_zero] at h'; rw [h'] at hkw; revert hkw; decide)
        simp only [hl, if_true, if_neg hn, Option.map_some, apply, canvas]
      · by_cases hn : (words s).getD 0 [] = "RECTANGLE".toList ∨ (words s).getD 0 [] = "CIRCLE".toList
        · simp only [hl, if_pos hn, Option.map_some, apply, canvas]
          rfl
        · simp only [hl, if_neg hn, Option.map_some, apply, canvas]
          rfl
    · rw [if_neg h, if_neg h]; rfl
  case arc =>
    unfold draw Model.Asc.readArc arcEntry
    simp only
    split_ifs with h
    · simp only [bind, Option.bind]
      cases parseInt _ <;> simp only [Option.map_none]
      cases parseInt _ <;> simp only [Option.map_none]
      cases parseInt _ <;> simp only [Option.map_none]
      cases parseInt _ <;> simp only [Option.map_none]
      cases parseInt _ <;> simp only [Option.map_none]
      cases parseInt _ <;> simp only [Option.map_none]
      cases parseInt _ <;> simp only [Option.map_none]
      cases parseInt _ <;> simp only [Option.map_none]
      simp only [Option.map_some, apply, canvas]
    · rfl
  case text =>
    unfold readText noteEntry
    generalize words s = ws
    match ws with
    | [_, px, py, al, sz, t] =>
      simp only [bind]
      cases parseInt px
      · rfl
      cases parseInt py
      · rfl
      cases parseInt sz
      · rfl
      simp only [Option.bind]
      cases alignSet _ al <;> rfl
    | [] => rfl
    | [_] => rfl
    | [_, _] => rfl
    | [_, _, _] => rfl
    | [_, _, _, _] => rfl
    | [_, _, _, _, _] => rfl
    | _ :: _ :: _ :: _ :: _ :: _ :: _ :: _ => rfl
  case unknown => rfl


theorem justify_placed (p : Text) (j : Str) : Placed j (justify p j) ∧ (justify p j) = { p with hor := (justify p j).hor, ver := (justify p j).ver, angle := (justify p j).angle } := by
  have hv : (j.head? = some 'V') ↔ ['V'] <+: j := by
    cases j with
    | nil => simp
    | cons c j => simp [eq_comm]
  unfold justify
  by_cases h0 : j = "NONE".toList
  · rw [if_pos h0]
    exact ⟨⟨fun _ => ⟨rfl, rfl, rfl⟩, fun h => absurd h0 h, fun h => absurd h0 h, fun h => absurd h0 h⟩, rfl⟩
  rw [if_neg h0]
  by_cases h1 : j.head? = some 'V'
  · rw [if_pos h1]
    have n1 : j ≠ "RIGHT".toList := by rintro rfl; revert h1; decide
    have n2 : j ≠ "TOP".toList := by rintro rfl; revert h1; decide
    refine ⟨⟨fun h => absurd h h0, fun _ => ⟨⟨fun _ => hv.1 h1, fun _ => rfl⟩, .inr rfl⟩, fun _ => ?_, fun _ => ?_⟩, rfl⟩
    · by_cases e : j = "VRIGHT".toList
      · simp only [if_pos e]; exact ⟨⟨fun _ => .inr e, fun _ => trivial⟩, .inr trivial⟩
      · simp only [if_neg e]; exact ⟨⟨fun h => by simp at h, fun h => h.elim (fun h => absurd h n1) (fun h => absurd h e)⟩, .inl trivial⟩
    · by_cases e : j = "VTOP".toList
      · simp only [if_pos e]; exact ⟨⟨fun _ => .inr e, fun _ => trivial⟩, .inr trivial⟩
      · simp only [if_neg e]; exact ⟨⟨fun h => by simp at h, fun h => h.elim (fun h => absurd h n2) (fun h => absurd h e)⟩, .inl trivial⟩
  · rw [if_neg h1]
    have n1 : j ≠ "VRIGHT".toList := by rintro rfl; exact h1 (by decide)
    have n2 : j ≠ "VTOP".toList := by rintro rfl; exact h1 (by decide)
    refine ⟨⟨fun h => absurd h h0, fun _ => ⟨⟨fun h => by simp at h, fun h => absurd (hv.2 h) h1⟩, .inl rfl⟩, fun _ => ?_, fun _ => ?_⟩, rfl⟩
    · by_cases e : j = "RIGHT".toList
      · simp only [if_pos e]; exact ⟨⟨fun _ => .inl e, fun _ => trivial⟩, .inr trivial⟩
      · simp only [if_neg e]; exact ⟨⟨fun h => by simp at h, fun h => h.elim (fun h => absurd h e) (fun h => absurd h n1)⟩, .inl trivial⟩
    · by_cases e : j = "TOP".toList
      · simp only [if_pos e]; exact ⟨⟨fun _ => .inl e, fun _ => trivial⟩, .inr trivial⟩
      · simp only [if_neg e]; exact ⟨⟨fun h => by simp at h, fun h => h.elim (fun h => absurd h e) (fun h => absurd h n2)⟩, .inl trivial⟩

theorem placed_unique {j : Str} {p q : Text} (hp : Placed j p) (hq : Placed j q) : p.hor = q.hor ∧ p.ver = q.ver ∧ p.angle = q.angle := by
  by_cases h : j = "NONE".toList
  · obtain ⟨a, b, c⟩ := hp.none h
    obtain ⟨a', b', c'⟩ := hq.none h
    exact ⟨a.trans a'.symm, b.trans b'.symm, c.trans c'.symm⟩
  · have r1 := hp.right h; have r2 := hq.right h
    have t1 := hp.top h; have t2 := hq.top h
    have a1 := hp.turned h; have a2 := hq.turned h
    refine ⟨?_, ?_, ?_⟩
    · rcases r1.2 with e | e <;> rcases r2.2 with e' | e' <;> rw [e, e']
      · have := r1.1.2 (r2.1.1 e'); rw [e] at this; exact this
      · have := r2.1.2 (r1.1.1 e); rw [e'] at this; exact this.symm
    · rcases t1.2 with e | e <;> rcases t2.2 with e' | e' <;> rw [e, e']
      · have := t1.1.2 (t2.1.1 e'); rw [e] at this; exact this
      · have := t2.1.2 (t1.1.1 e); rw [e'] at this; exact this.symm
    · rcases a1.2 with e | e <;> rcases a2.2 with e' | e' <;> rw [e, e']
      · have := a1.1.2 (a2.1.1 e'); rw [e] at this; exact this
      · have := a2.1.2 (a1.1.1 e); rw [e'] at this; exact this.symm

theorem style_cases (style : List Str) (h : style.length ≤ 1) : style = [] ∨ ∃ p, style = [p] := by
  match style with
  | [] => exact .inl rfl
  | [p] => exact .inr ⟨p, rfl⟩
  | _ :: _ :: _ => simp at h

theorem splitOn_three (s a b c : Str) (h : s = a ++ ' ' :: b ++ ' ' :: c) (ha : ' ' ∉ a) (hb : ' ' ∉ b) (hc : ' ' ∉ c) : splitOn ' ' s = [a, b, c] := by
  subst h
  have e : a ++ ' ' :: b ++ ' ' :: c = a ++ ' ' :: (b ++ ' ' :: c) := by simp
  rw [e, splitOn_cons ' ' a _ (fun d hd h => ha (h ▸ hd)), splitOn_cons ' ' b _ (fun d hd h => hb (h ▸ hd)), splitOn_clean ' ' c (fun d hd h => hc (h ▸ hd))]

theorem splitOn_ne (sep : Char) (s : Str) : splitOn sep s ≠ [] := by
  cases s with
  | nil => simp [splitOn]
  | cons c s =>
    rw [splitOn]
    split_ifs
    · simp
    · cases splitOn sep s <;> simp

theorem splitOn_intercalate (sep : Char) (s : Str) : List.intercalate [sep] (splitOn sep s) = s := by
  induction s with
  | nil => rfl
  | cons c s ih =>
    rw [splitOn]
    by_cases h : c = sep
    · rw [if_pos h]
      cases hs : splitOn sep s with
      | nil => exact absurd hs (splitOn_ne sep s)
      | cons w ws =>
        rw [hs] at ih
        subst h
        rw [← ih]
        simp [List.intercalate]
    · rw [if_neg h]
      cases hs : splitOn sep s with
      | nil => rw [hs] at ih; rw [← ih]; simp [List.intercalate]
      | cons w ws =>
        rw [hs] at ih
        simp only
        rw [← ih]
        cases ws <;> simp [List.intercalate]

theorem entry_says (s : Str) (e : Entry) (h : entry s = some e) : Says s e := by
  have hk := kind_iff s
  unfold entry at h
  cases k : kind s <;> rw [k] at h <;> simp only at h
  case window =>
    have hp := hk.1.1 k
    unfold windowEntry at h
    split at h
    · rename_i w0 num px py al sz hw
      simp only [Option.bind_eq_some_iff, Option.map_eq_some_iff] at h
      obtain ⟨x, hx, y, hy, size, hs, t, ht, rfl⟩ := h
      exact .window s w0 num px py al sz x y size t hp hw hx hy hs ht
    · simp at h
  case symattr =>
    have hp := hk.2.1.1 k
    simp only [Option.some.injEq] at h
    subst h
    unfold attrEntry
    rcases splitTwice_spec s with ⟨_, h2⟩ | ⟨a, h1, h2⟩ | ⟨a, b, h1, h2⟩ | ⟨a, b, t, h1, h2, _⟩
    · obtain ⟨w, ws, hw⟩ := keyword_some (k := "SYMATTR".toList) ⟨by decide, by decide⟩ hp
      rw [h2] at hw; simp at hw
    · rw [h1]; exact .attrNone s a hp h2
    · rw [h1]; exact .attrEmpty s a b hp h2
    · rw [h1]; exact .attr s a b t hp h2
  case version =>
    have hp := hk.2.2.1.1 k
    unfold versionEntry at h
    split at h
    · rename_i w0 v hw
      split_ifs at h with hv
      simp only [Option.some.injEq] at h
      subst h
      exact .version s w0 v hp hw (by simpa using hv)
    · simp at h
  case symbolType =>
    obtain ⟨t, ht⟩ := hk.2.2.2.1.1 k
    simp only [Option.some.injEq] at h
    subst h
    have : s.drop 11 = t := by rw [← ht]; rfl
    rw [this]
    exact .type s t ht.symm
  case pinattr =>
    have hp := hk.2.2.2.2.1.1 k
    unfold pinAttrEntry at h
    split at h
    · rename_i w0 n v hw
      simp only [Option.some.injEq] at h
      subst h
      have hj := splitOn_intercalate ' ' s
      have hc := splitOn_clean_parts ' ' s
      rw [hw] at hj hc
      refine .pinAttr s w0 n v hp ?_ (hc _ (by simp)) (hc _ (by simp)) (hc _ (by simp))
      rw [← hj]
      simp [List.intercalate]
    · simp at h
  case pin =>
    have hp := hk.2.2.2.2.2.1.1 k
    unfold pinEntry at h
    split at h
    · rename_i w0 px py j off hw
      simp only [Option.bind_eq_some_iff, Option.map_eq_some_iff] at h
      obtain ⟨x, hx, y, hy, size, hs, rfl⟩ := h
      obtain ⟨h1, h2⟩ := justify_placed { x, y, text := [], size, type := .pin } j
      exact .pin s w0 px py j off x y size _ hp.1 hp.2 hw hx hy hs h2 h1
    · simp at h
  case figure =>
    have hp := hk.2.2.2.2.2.2.1.1 k
    unfold figureEntry at h
    by_cases hlen : (words s).length = 6 ∨ (words s).length = 7
    swap
    · rw [if_neg hlen] at h; simp at h
    rw [if_pos hlen] at h
    simp only [Option.bind_eq_some_iff] at h
    obtain ⟨x1, h1, y1, h2, x2, h3, y2, h4, h⟩ := h
    have hws : ∃ (w0 w1 a b c d : Str) (style : List Str), words s = [w0, w1, a, b, c, d] ++ style ∧ style.length ≤ 1 := by
      generalize words s = ws at hlen
      match ws with
      | [w0, w1, a, b, c, d] => exact ⟨w0, w1, a, b, c, d, [], rfl, by simp⟩
      | [w0, w1, a, b, c, d, e] => exact ⟨w0, w1, a, b, c, d, [e], rfl, by simp⟩
      | [] => simp at hlen
      | [_] => simp at hlen
      | [_, _] => simp at hlen
      | [_, _, _] => simp at hlen
      | [_, _, _, _] => simp at hlen
      | [_, _, _, _, _] => simp at hlen
      | _ :: _ :: _ :: _ :: _ :: _ :: _ :: _ :: _ => simp at hlen
    obtain ⟨w0, w1, a, b, c, d, style, hw, hst⟩ := hws
    have hpat : (words s).getD 6 [] = style.flatten := by
      rw [hw]; rcases style_cases style hst with rfl | ⟨p, rfl⟩ <;> simp
    rw [hpat] at h
    rw [hw] at h1 h2 h3 h4 h
    simp only [List.cons_append, List.getD_cons_succ, List.getD_cons_zero] at h1 h2 h3 h4 h
    by_cases hl : "LINE".toList.isPrefixOf s = true
    · rw [if_pos hl] at h
      simp only [Option.some.injEq] at h
      subst h
      exact .line s w0 w1 a b c d style x1 y1 x2 y2 (List.isPrefixOf_iff_prefix.1 hl) hw hst h1 h2 h3 h4
    · rw [if_neg hl] at h
      have hp' : "RECTANGLE".toList <+: s ∨ "CIRCLE".toList <+: s := hp.resolve_left (fun h => hl (List.isPrefixOf_iff_prefix.2 h))
      by_cases h0 : w0 = "RECTANGLE".toList ∨ w0 = "CIRCLE".toList
      · rw [if_pos h0] at h
        simp only [Option.some.injEq] at h
        subst h
        refine .shape s w0 w1 a b c d style x1 y1 x2 y2 hw ?_ h0 hst h1 h2 h3 h4
        rcases hp' with hp' | hp'
        · have := keyword_word (k := "RECTANGLE".toList) ⟨by decide, by decide⟩ hp' hw
          rcases h0 with e | e
          · rw [e]; exact hp'
          · rw [e] at this; exact absurd this (by decide)
        · have := keyword_word (k := "CIRCLE".toList) ⟨by decide, by decide⟩ hp' hw
          rcases h0 with e | e
          · rw [e] at this; exact absurd this (by decide)
          · rw [e]; exact hp'
      · rw [if_neg h0] at h
        simp only [Option.some.injEq] at h
        subst h
        exact .figureOther s w0 w1 a b c d style x1 y1 x2 y2 hp' hw ⟨fun e => h0 (.inl e), fun e => h0 (.inr e)⟩ hst h1 h2 h3 h4
  case arc =>
    have hp := hk.2.2.2.2.2.2.2.1.1 k
    unfold arcEntry at h
    split_ifs at h with hlen
    simp only [Option.bind_eq_some_iff] at h
    obtain ⟨x1, h1, y1, h2, x2, h3, y2, h4, x3, h5, y3, h6, x4, h7, y4, h8, h⟩ := h
    have hws : ∃ (w0 w1 a b c d e f g i : Str) (style : List Str), words s = [w0, w1, a, b, c, d, e, f, g, i] ++ style ∧ style.length ≤ 1 := by
      generalize words s = ws at hlen
      match ws with
      | [w0, w1, a, b, c, d, e, f, g, i] => exact ⟨w0, w1, a, b, c, d, e, f, g, i, [], rfl, by simp⟩
      | [w0, w1, a, b, c, d, e, f, g, i, j] => exact ⟨w0, w1, a, b, c, d, e, f, g, i, [j], rfl, by simp⟩
      | [] => simp at hlen
      | [_] => simp at hlen
      | [_, _] => simp at hlen
      | [_, _, _] => simp at hlen
      | [_, _, _, _] => simp at hlen
      | [_, _, _, _, _] => simp at hlen
      | [_, _, _, _, _, _] => simp at hlen
      | [_, _, _, _, _, _, _] => simp at hlen
      | [_, _, _, _, _, _, _, _] => simp at hlen
      | [_, _, _, _, _, _, _, _, _] => simp at hlen
      | _ :: _ :: _ :: _ :: _ :: _ :: _ :: _ :: _ :: _ :: _ :: _ :: _ => simp at hlen
    obtain ⟨w0, w1, a, b, c, d, e', f, g, i, style, hw, hst⟩ := hws
    have hpat : (words s).getD 10 [] = style.flatten := by
      rw [hw]; rcases style_cases style hst with rfl | ⟨p, rfl⟩ <;> simp
    rw [hpat] at h
    rw [hw] at h1 h2 h3 h4 h5 h6 h7 h8
    simp only [List.cons_append, List.getD_cons_succ, List.getD_cons_zero] at h1 h2 h3 h4 h5 h6 h7 h8
    simp only [Option.some.injEq] at h
    subst h
    exact .arc s w0 w1 a b c d e' f g i style x1 y1 x2 y2 x3 y3 x4 y4 hp hw hst h1 h2 h3 h4 h5 h6 h7 h8
  case text =>
    have hp := hk.2.2.2.2.2.2.2.2.1 k
    unfold noteEntry at h
    split at h
    · rename_i w0 px py al sz t hw
      simp only [Option.bind_eq_some_iff, Option.map_eq_some_iff] at h
      obtain ⟨x, hx, y, hy, size, hs, t', ht, rfl⟩ := h
      exact .note s w0 px py al sz t x y size t' hp hw hx hy hs ht
    · rename_i hw
      simp only [Option.some.injEq] at h
      subst h
      refine .noteOther s hp ?_
      intro hlen
      generalize words s = ws at hlen hw
      match ws with
      | [a, b, c, d, e, f] => exact hw a b c d e f rfl
      | [] => simp at hlen
      | [_] => simp at hlen
      | [_, _] => simp at hlen
      | [_, _, _] => simp at hlen
      | [_, _, _, _] => simp at hlen
      | [_, _, _, _, _] => simp at hlen
      | _ :: _ :: _ :: _ :: _ :: _ :: _ :: _ => simp at hlen
  case unknown => simp at h

theorem says_entry (s : Str) (e : Entry) (h : Says s e) : entry s = some e := by
  have hk := kind_iff s
  unfold entry
  cases h with
  | window w0 num px py al sz x y size t h hw hx hy hs ht =>
    rw [hk.1.2 h]
    show windowEntry s = _
    unfold windowEntry
    rw [hw]
    simp only [hx, hy, hs, Option.bind_some, ht, Option.map_some]
  | attr w0 name text h hw =>
    rw [hk.2.1.2 h]
    show some (attrEntry s) = _
    unfold attrEntry
    rw [splitTwice_headed hw]
  | attrEmpty w0 name h hw =>
    rw [hk.2.1.2 h]
    show some (attrEntry s) = _
    unfold attrEntry
    rcases splitTwice_spec s with ⟨h1, h2⟩ | ⟨a, h1, h2⟩ | ⟨a, b, h1, h2⟩ | ⟨a, b, t, h1, _, c, ws, h2⟩ <;> rw [hw] at h2 <;> simp at h2
    rw [h1, h2.2]
  | attrNone w0 h hw =>
    rw [hk.2.1.2 h]
    show some (attrEntry s) = _
    unfold attrEntry
    rcases splitTwice_spec s with ⟨h1, h2⟩ | ⟨a, h1, h2⟩ | ⟨a, b, h1, h2⟩ | ⟨a, b, t, h1, _, c, ws, h2⟩ <;> rw [hw] at h2 <;> simp at h2
    rw [h1]
  | version w0 v h hw hv =>
    rw [hk.2.2.1.2 h]
    show versionEntry s = _
    unfold versionEntry
    rw [hw]
    exact if_pos (by simpa using hv)
  | type t h =>
    rw [hk.2.2.2.1.2 ⟨t, h.symm⟩]
    show some (Entry.type (strip (s.drop 11))) = _
    have : s.drop 11 = t := by rw [h]; rfl
    rw [this]
  | pinAttr w0 name value h hs h0 hn hv =>
    rw [hk.2.2.2.2.1.2 h]
    show pinAttrEntry s = _
    unfold pinAttrEntry
    rw [splitOn_three s w0 name value hs h0 hn hv]
  | pin w0 px py j off x y size p h h' hw hx hy hs hp hj =>
    rw [hk.2.2.2.2.2.1.2 ⟨h, h'⟩]
    show pinEntry s = _
    unfold pinEntry
    rw [hw]
    simp only [hx, hy, hs, Option.bind_some, Option.map_some]
    obtain ⟨h1, h2⟩ := justify_placed { x, y, text := [], size, type := .pin } j
    obtain ⟨e1, e2, e3⟩ := placed_unique h1 hj
    rw [h2, e1, e2, e3, ← hp]
  | line w0 w1 a b c d style x1 y1 x2 y2 h hw hs ha hb hc hd =>
    rw [hk.2.2.2.2.2.2.1.2 (.inl h)]
    show figureEntry s = _
    unfold figureEntry
    have hpat : (words s).getD 6 [] = style.flatten := by
      rw [hw]; rcases style_cases style hs with rfl | ⟨p, rfl⟩ <;> simp
    have hlen : (words s).length = 6 ∨ (words s).length = 7 := by
      rw [hw]; rcases style_cases style hs with rfl | ⟨p, rfl⟩ <;> simp
    rw [if_pos hlen, hpat, hw]
    simp only [List.cons_append, List.getD_cons_succ, List.getD_cons_zero, ha, hb, hc, hd, Option.bind_some]
    rw [if_pos (List.isPrefixOf_iff_prefix.2 h)]
  | shape w0 w1 a b c d style x1 y1 x2 y2 hw h h0 hs ha hb hc hd =>
    have hf : "RECTANGLE".toList <+: s ∨ "CIRCLE".toList <+: s := by
      rcases h0 with e | e <;> rw [e] at h
      · exact .inl h
      · exact .inr h
    have hl : ¬ "LINE".toList.isPrefixOf s = true := by
      rw [List.isPrefixOf_iff_prefix]
      rcases hf with hf | hf <;> exact apart hf (by decide) (by decide)
    rw [hk.2.2.2.2.2.2.1.2 (.inr hf)]
    show figureEntry s = _
    unfold figureEntry
    have hpat : (words s).getD 6 [] = style.flatten := by
      rw [hw]; rcases style_cases style hs with rfl | ⟨p, rfl⟩ <;> simp
    have hlen : (words s).length = 6 ∨ (words s).length = 7 := by
      rw [hw]; rcases style_cases style hs with rfl | ⟨p, rfl⟩ <;> simp
    rw [if_pos hlen, hpat, hw]
    simp only [List.cons_append, List.getD_cons_succ, List.getD_cons_zero, ha, hb, hc, hd, Option.bind_some]
    rw [if_neg hl, if_pos h0]
  | arc w0 w1 a b c d e f g i style x1 y1 x2 y2 x3 y3 x4 y4 h hw hs ha hb hc hd he hf hg hi =>
    rw [hk.2.2.2.2.2.2.2.1.2 h]
    show arcEntry s = _
    unfold arcEntry
    have hpat : (words s).getD 10 [] = style.flatten := by
      rw [hw]; rcases style_cases style hs with rfl | ⟨p, rfl⟩ <;> simp
    have hlen : (words s).length = 10 ∨ (words s).length = 11 := by
      rw [hw]; rcases style_cases style hs with rfl | ⟨p, rfl⟩ <;> simp
    rw [if_pos hlen, hpat, hw]
    simp only [List.cons_append, List.getD_cons_succ, List.getD_cons_zero, ha, hb, hc, hd, he, hf, hg, hi, Option.bind_some]
  | figureOther w0 w1 a b c d style x1 y1 x2 y2 h hw h0 hs ha hb hc hd =>
    have hl : ¬ "LINE".toList.isPrefixOf s = true := by
      rw [List.isPrefixOf_iff_prefix]
      rcases h with hf | hf <;> exact apart hf (by decide) (by decide)
    rw [hk.2.2.2.2.2.2.1.2 (.inr h)]
    show figureEntry s = _
    unfold figureEntry
    have hlen : (words s).length = 6 ∨ (words s).length = 7 := by
      rw [hw]; rcases style_cases style hs with rfl | ⟨p, rfl⟩ <;> simp
    rw [if_pos hlen, hw]
    simp only [List.cons_append, List.getD_cons_succ, List.getD_cons_zero, ha, hb, hc, hd, Option.bind_some]
    rw [if_neg hl, if_neg (fun h => h.elim h0.1 h0.2)]
  | note w0 px py al sz text x y size t h hw hx hy hs ht =>
    rw [hk.2.2.2.2.2.2.2.2.2 h]
    show noteEntry s = _
    unfold noteEntry
    rw [hw]
    simp only [hx, hy, hs, Option.bind_some, ht, Option.map_some]
  | noteOther h hw =>
    rw [hk.2.2.2.2.2.2.2.2.2 h]
    show noteEntry s = _
    unfold noteEntry
    generalize words s = ws at hw
    match ws with
    | [a, b, c, d, e, f] => simp at hw
    | [] => rfl
    | [_] => rfl
    | [_, _] => rfl
    | [_, _, _] => rfl
    | [_, _, _, _] => rfl
    | [_, _, _, _, _] => rfl
    | _ :: _ :: _ :: _ :: _ :: _ :: _ :: _ => rfl


/-- C78: a line says one thing at most. -/
theorem C78_unambiguous (s : Str) (e e' : Entry) (h : Says s e) (h' : Says s e') : e = e' := by
  have h1 := says_entry s e h
  have h2 := says_entry s e' h'
  rw [h1] at h2
  exact Option.some.inj h2

/-! ### The whole file -/

def applyAll : St → List Entry → Option St
  | st, [] => some st
  | st, e :: es => (apply st e).bind (fun st => applyAll st es)

theorem steps_entries : ∀ (ls : List Str) (st st' : St), steps st ls = some st' ↔ ∃ es, List.Forall₂ Says ls es ∧ applyAll st es = some st'
  | [], st, st' => by
    constructor
    · intro h; exact ⟨[], .nil, h⟩
    · rintro ⟨es, h, h'⟩; cases h; exact h'
  | l :: ls, st, st' => by
    rw [steps, step_entry]
    constructor
    · intro h
      simp only [Option.bind_eq_some_iff] at h
      obtain ⟨st1, ⟨e, he, ha⟩, h⟩ := h
      obtain ⟨es, h1, h2⟩ := (steps_entries ls st1 st').1 h
      exact ⟨e :: es, .cons (entry_says l e he) h1, by rw [applyAll, ha]; exact h2⟩
    · rintro ⟨es, h, h'⟩
      cases h with
      | cons h1 h2 =>
        rename_i e es
        rw [says_entry _ _ h1]
        rw [applyAll] at h'
        simp only [Option.bind_some]
        simp only [Option.bind_eq_some_iff] at h' ⊢
        obtain ⟨st1, ha, h'⟩ := h'
        exact ⟨st1, ha, (steps_entries ls st1 st').2 ⟨es, h2, h'⟩⟩

/-- The pin being read with the attributes still to come, and the pins after it. -/
def pending (p : Option Text) (es : List Entry) : List Text := p.toList.map (fun p => { p with text := p.text ++ pinText (attrsOf es) })

theorem lookup_dset (k n v : Str) : ∀ l : List (Str × Str), (dset n v l).lookup k = if k = n then some v else l.lookup k
  | [] => by
    by_cases h : k = n
    · simp [dset, List.lookup, h]
    · have : (k == n) = false := by simpa using h
      simp [dset, List.lookup, h, this]
  | (k', v') :: l => by
    rw [dset]
    by_cases h : k' = n
    · rw [if_pos h]
      by_cases hk : k = n
      · simp [List.lookup, h, hk]
      · have : (k == k') = false := by rw [h]; simpa using hk
        simp [List.lookup, this, hk]
    · rw [if_neg h]
      by_cases hk : k = k'
      · subst hk
        simp [List.lookup, h]
      · have : (k == k') = false := by simpa using hk
        simp only [List.lookup, this]
        exact lookup_dset k n v l

/-- What the entries add to a state. -/
structure Adds (st : St) (es : List Entry) (st' : St) : Prop where
  version : st'.version = (versions es).getLast?.getD st.version
  type : st'.symbolType = ((types es).getLast?).or st.symbolType
  windows : st'.windows = st.windows ++ Spec.SymbolFile.windows es
  lines : st'.lines = st.lines ++ Spec.SymbolFile.lines es
  shapes : st'.shapes = st.shapes ++ Spec.SymbolFile.shapes es
  pins : (finish st').pins = st.pins ++ pending st.pin es ++ (pinsOf es).map (fun p => { p.1 with text := p.1.text ++ pinText p.2 })
  attrs : ∀ k, st'.attrs.lookup k = ((Spec.SymbolFile.attrs es).reverse.lookup k).or (st.attrs.lookup k)
  keys : (st.attrs.map Prod.fst).Nodup → (st'.attrs.map Prod.fst).Nodup

theorem getLast?_cons_getD {α : Type} (v d : α) (l : List α) : (v :: l).getLast?.getD d = l.getLast?.getD v := by
  cases l with
  | nil => rfl
  | cons w l => simp [List.getLast?_cons]

theorem getLast?_cons_or {α : Type} (v : α) (o : Option α) (l : List α) : ((v :: l).getLast?).or o = (l.getLast?).or (some v) := by
  cases l with
  | nil => cases o <;> rfl
  | cons w l => simp [List.getLast?_cons]

theorem lookup_append' (k : Str) (l m : List (Str × Str)) : (l ++ m).lookup k = (l.lookup k).or (m.lookup k) := by
  induction l with
  | nil => rfl
  | cons p l ih =>
    obtain ⟨a, b⟩ := p
    by_cases h : k == a <;> simp [List.lookup, h, ih]

theorem finish_pins (st : St) : (finish st).pins = st.pins ++ st.pin.toList := rfl

theorem applyAll_adds : ∀ (es : List Entry) (st st' : St), applyAll st es = some st' → Adds st es st'
  | [], st, st', h => by
    simp only [applyAll, Option.some.injEq] at h
    subst h
    refine ⟨rfl, by simp [types], by simp [Spec.SymbolFile.windows], by simp [Spec.SymbolFile.lines], by simp [Spec.SymbolFile.shapes], ?_, by simp [Spec.SymbolFile.attrs], id⟩
    rw [finish_pins]
    cases st.pin <;> simp [pending, pinsOf, attrsOf, pinText]
  | e :: es, st, st', h => by
    simp only [applyAll, Option.bind_eq_some_iff] at h
    obtain ⟨st1, ha, h⟩ := h
    have ih := applyAll_adds es st1 st' h
    cases e with
    | window t =>
      simp only [apply, Option.some.injEq] at ha
      subst ha
      exact ⟨ih.version, ih.type, by rw [ih.windows]; simp [Spec.SymbolFile.windows], ih.lines, ih.shapes, ih.pins, ih.attrs, ih.keys⟩
    | attr n t =>
      simp only [apply, Option.some.injEq] at ha
      subst ha
      refine ⟨ih.version, ih.type, ih.windows, ih.lines, ih.shapes, ih.pins, ?_, fun hn => ih.keys (dset_nodup n t _ hn)⟩
      intro k
      rw [ih.attrs k]
      show _ = ((((n, t) :: Spec.SymbolFile.attrs es).reverse).lookup k).or _
      rw [List.reverse_cons, lookup_append', lookup_dset]
      cases ((Spec.SymbolFile.attrs es).reverse).lookup k with
      | some v => rfl
      | none =>
        by_cases hk : k = n
        · subst hk; simp [List.lookup]
        · have : (k == n) = false := by simpa using hk
          simp [List.lookup, this, hk]
    | version v =>
      simp only [apply, Option.some.injEq] at ha
      subst ha
      refine ⟨?_, ih.type, ih.windows, ih.lines, ih.shapes, ih.pins, ih.attrs, ih.keys⟩
      rw [ih.version]
      exact (getLast?_cons_getD v st.version (versions es)).symm
    | type t =>
      simp only [apply, Option.some.injEq] at ha
      subst ha
      refine ⟨ih.version, ?_, ih.windows, ih.lines, ih.shapes, ih.pins, ih.attrs, ih.keys⟩
      rw [ih.type]
      exact (getLast?_cons_or t st.symbolType (types es)).symm
    | pin p =>
      simp only [apply, Option.some.injEq] at ha
      subst ha
      refine ⟨ih.version, ih.type, ih.windows, ih.lines, ih.shapes, ?_, ih.attrs, ih.keys⟩
      rw [ih.pins]
      show st.pins ++ st.pin.toList ++ pending (some p) es ++ _ = _
      have h1 : pending st.pin (.pin p :: es) = st.pin.toList := by
        unfold pending attrsOf pinText
        cases st.pin <;> simp
      have h2 : pending (some p) es = [{ p with text := p.text ++ pinText (attrsOf es) }] := rfl
      rw [h1, h2]
      simp [pinsOf]
    | pinAttr n v =>
      simp only [apply, Option.map_eq_some_iff] at ha
      obtain ⟨p, hp, rfl⟩ := ha
      refine ⟨ih.version, ih.type, ih.windows, ih.lines, ih.shapes, ?_, ih.attrs, ih.keys⟩
      rw [ih.pins, hp]
      simp [pending, attrsOf, pinsOf, pinText]
    | line l =>
      simp only [apply, Option.some.injEq] at ha
      subst ha
      exact ⟨ih.version, ih.type, ih.windows, by rw [ih.lines]; simp [Spec.SymbolFile.lines], ih.shapes, ih.pins, ih.attrs, ih.keys⟩
    | shape l =>
      simp only [apply, Option.some.injEq] at ha
      subst ha
      exact ⟨ih.version, ih.type, ih.windows, ih.lines, by rw [ih.shapes]; simp [Spec.SymbolFile.shapes], ih.pins, ih.attrs, ih.keys⟩
    | nothing =>
      simp only [apply, Option.some.injEq] at ha
      subst ha
      exact ⟨ih.version, ih.type, ih.windows, ih.lines, ih.shapes, ih.pins, ih.attrs, ih.keys⟩

/-- Applying succeeds as long as no PINATTR comes before the first PIN. -/
theorem applyAll_some : ∀ (es : List Entry) (st : St), (∃ st', applyAll st es = some st') ↔
    (st.pin ≠ none ∨ PinsFirst es)
  | [], st => ⟨fun _ => .inr (by rintro (_ | _) b n v h <;> simp at h), fun _ => ⟨st, rfl⟩⟩
  | e :: es, st => by
    have other : ∀ (st1 : St), apply st e = some st1 → st1.pin = st.pin → (∀ n v, e ≠ .pinAttr n v) → (∀ p, e ≠ .pin p) →
        ((∃ st', applyAll st (e :: es) = some st') ↔ (st.pin ≠ none ∨ PinsFirst (e :: es))) := by
      intro st1 ha hp hn hq
      have : applyAll st (e :: es) = applyAll st1 es := by rw [applyAll, ha]; rfl
      rw [this, applyAll_some es st1, hp]
      refine or_congr_right ⟨fun h a b n v he => ?_, fun h a b n v he => ?_⟩
      · cases a with
        | nil => simp only [List.nil_append, List.cons.injEq] at he; exact absurd he.1 (hn n v)
        | cons x a =>
          simp only [List.cons_append, List.cons.injEq] at he
          obtain ⟨p, hp⟩ := h a b n v he.2
          exact ⟨p, List.mem_cons_of_mem _ hp⟩
      · obtain ⟨p, hp⟩ := h (e :: a) b n v (by rw [he]; rfl)
        rcases List.mem_cons.1 hp with h' | h'
        · exact absurd h'.symm (hq p)
        · exact ⟨p, h'⟩
    cases e with
    | window t => exact other _ rfl rfl (by simp) (by simp)
    | attr n t => exact other _ rfl rfl (by simp) (by simp)
    | version v => exact other _ rfl rfl (by simp) (by simp)
    | type t => exact other _ rfl rfl (by simp) (by simp)
    | line l => exact other _ rfl rfl (by simp) (by simp)
    | shape l => exact other _ rfl rfl (by simp) (by simp)
    | nothing => exact other _ rfl rfl (by simp) (by simp)
    | pin p =>
      have : applyAll st (.pin p :: es) = applyAll { st with pins := st.pins ++ st.pin.toList, pin := some p } es := rfl
      rw [this, applyAll_some es]
      refine ⟨fun _ => .inr ?_, fun _ => .inl (by simp)⟩
      intro a b n v he
      cases a with
      | nil => simp at he
      | cons x a =>
        simp only [List.cons_append, List.cons.injEq] at he
        exact ⟨p, by rw [he.1]; exact List.mem_cons_self⟩
    | pinAttr n v =>
      cases hp : st.pin with
      | none =>
        have : applyAll st (.pinAttr n v :: es) = none := by rw [applyAll, apply, hp]; rfl
        rw [this]
        refine ⟨fun h => by simp at h, fun h => ?_⟩
        rcases h with h | h
        · exact absurd rfl h
        · obtain ⟨p, hp⟩ := h [] es n v rfl
          simp at hp
      | some p =>
        have : applyAll st (.pinAttr n v :: es) = applyAll { st with pin := some { p with text := p.text ++ n ++ '=' :: v ++ [';'] } } es := by
          rw [applyAll, apply, hp]; rfl
        rw [this, applyAll_some es]
        exact ⟨fun _ => .inl (by simp), fun _ => .inl (by simp)⟩

theorem pin_bare {s : Str} {p : Text} (h : Says s (.pin p)) : p.text = [] := by
  cases h with
  | pin w0 px py j off x y size p h h' hw hx hy hs hp hj => rw [hp]

theorem pins_bare {ls : List Str} {es : List Entry} (h : List.Forall₂ Says ls es) : ∀ p as, (p, as) ∈ pinsOf es → p.text = [] := by
  induction h with
  | nil => intro p as hm; simp [pinsOf] at hm
  | @cons l e ls es h1 _ ih =>
    intro p as hm
    cases e with
    | pin q =>
      simp only [pinsOf, List.mem_cons, Prod.mk.injEq] at hm
      rcases hm with ⟨rfl, _⟩ | hm
      · exact pin_bare h1
      · exact ih p as hm
    | _ => exact ih p as hm

theorem shows_of (es : List Entry) (ls : List Str) (st : St) (hs : List.Forall₂ Says ls es) (h : Adds {} es st) : Shows es (finish st) where
  version := h.version
  type := by rw [show (finish st).symbolType = st.symbolType from rfl, h.type]; cases (types es).getLast? <;> rfl
  windows := by rw [show (finish st).windows = st.windows from rfl, h.windows]; rfl
  lines := by rw [show (finish st).lines = st.lines from rfl, h.lines]; rfl
  shapes := by rw [show (finish st).shapes = st.shapes from rfl, h.shapes]; rfl
  pins := by
    rw [h.pins]
    show [] ++ [] ++ _ = _
    simp only [List.nil_append]
    apply List.map_congr_left
    rintro ⟨p, as⟩ hm
    simp only
    rw [pins_bare hs p as hm]; rfl
  attrs := by
    intro k
    rw [show (finish st).attrs = st.attrs from rfl, h.attrs k]
    cases (Spec.SymbolFile.attrs es).reverse.lookup k <;> rfl
  keys := h.keys (by simp)

/-- C78: a symbol file that is read says something on every line, names a pin before its attributes, and the reader shows what the file
says. -/
theorem C78_read (txt : Str) (st : St) (h : Model.Asy.read txt = some st) : ∃ es, List.Forall₂ Says (linesOf txt) es ∧ PinsFirst es ∧ Shows es st := by
  simp only [Model.Asy.read, Option.map_eq_some_iff] at h
  obtain ⟨st', h, rfl⟩ := h
  obtain ⟨es, h1, h2⟩ := (steps_entries _ _ _).1 h
  refine ⟨es, h1, ?_, shows_of es _ st' h1 (applyAll_adds es _ _ h2)⟩
  rcases (applyAll_some es {}).1 ⟨st', h2⟩ with h | h
  · exact absurd rfl h
  · exact h

/-- C78: every such file is read. -/
theorem C78_accepted (txt : Str) (es : List Entry) (h : List.Forall₂ Says (linesOf txt) es) (hp : PinsFirst es) : ∃ st, Model.Asy.read txt = some st ∧ Shows es st := by
  obtain ⟨st', h2⟩ := (applyAll_some es {}).2 (.inr hp)
  refine ⟨finish st', ?_, shows_of es _ st' h (applyAll_adds es _ _ h2)⟩
  simp only [Model.Asy.read, Option.map_eq_some_iff]
  exact ⟨st', (steps_entries _ _ _).2 ⟨es, h, h2⟩, rfl⟩


/-! ### Library and model -/

theorem isLibrary_iff (v : Str) : isLibrary v = true ↔ LibraryName v := by
  unfold isLibrary LibraryName
  simp only [List.any_eq_true, List.isSuffixOf_iff_suffix]
  refine exists_congr fun e => and_congr_right fun _ => ?_
  constructor
  · rintro ⟨p, hp⟩
    unfold lower at hp
    obtain ⟨n, x, e1, e2, e3⟩ := List.append_eq_map_iff.1 hp
    exact ⟨n, x, e1, e3⟩
  · rintro ⟨n, x, rfl, e1⟩
    exact ⟨lower n, by rw [← e1]; simp [lower]⟩

theorem findSome_first (f : Str → Option Str) : ∀ (l : List Str) (v : Str), l.findSome? f = some v ↔
    ∃ (before : List Str) (a : Str) (after : List Str), l = before ++ a :: after ∧ f a = some v ∧ ∀ b ∈ before, f b = none
  | [], v => by simp
  | x :: l, v => by
    rw [List.findSome?_cons]
    cases hx : f x with
    | some w =>
      simp only
      constructor
      · intro h; exact ⟨[], x, l, rfl, by rw [hx, ← h], by simp⟩
      · rintro ⟨before, a, after, e, h, hb⟩
        cases before with
        | nil => simp only [List.nil_append, List.cons.injEq] at e; rw [← e.1, hx] at h; exact h
        | cons y before =>
          simp only [List.cons_append, List.cons.injEq] at e
          have := hb y List.mem_cons_self
          rw [← e.1, hx] at this
          simp at this
    | none =>
      simp only
      rw [findSome_first f l v]
      constructor
      · rintro ⟨before, a, after, rfl, h, hb⟩
        exact ⟨x :: before, a, after, rfl, h, by simpa [hx] using hb⟩
      · rintro ⟨before, a, after, e, h, hb⟩
        cases before with
        | nil => simp only [List.nil_append, List.cons.injEq] at e; rw [← e.1, hx] at h; simp at h
        | cons y before =>
          simp only [List.cons_append, List.cons.injEq] at e
          exact ⟨before, a, after, e.2, h, fun b hb' => hb b (List.mem_cons_of_mem _ hb')⟩

/-- C78: get_library gives the first of the seven attributes that names a library file. -/
theorem C78_library (st : St) (v : Str) (h : FirstOf LibraryName ["ModelFile".toList, "SpiceModel".toList, "SpiceLine".toList, "SpiceLine2".toList, "Def_Sub".toList, "Value".toList, "Value2".toList] st v) :
    getLibrary st = some v := by
  obtain ⟨before, a, after, e, ha, hv, hb⟩ := h
  unfold getLibrary
  have := (findSome_first (fun a => (st.attrs.lookup a).filter isLibrary) libraryAttrs v).2 ⟨before, a, after, e, ?_, ?_⟩
  · rw [this]
  · simp [ha, Option.filter, (isLibrary_iff v).2 hv]
  · intro b hb'
    cases hl : st.attrs.lookup b with
    | none => rfl
    | some u =>
      have := hb b hb' u hl
      rw [← isLibrary_iff] at this
      simp [Option.filter, this]

/-- C78: when none of them does, it gives the SpiceModel attribute, if there is one. -/
theorem C78_library_else (st : St) (h : ∀ a ∈ ["ModelFile".toList, "SpiceModel".toList, "SpiceLine".toList, "SpiceLine2".toList, "Def_Sub".toList, "Value".toList, "Value2".toList], ∀ v, st.attrs.lookup a = some v → ¬ LibraryName v) :
    getLibrary st = st.attrs.lookup "SpiceModel".toList := by
  unfold getLibrary
  have : libraryAttrs.findSome? (fun a => (st.attrs.lookup a).filter isLibrary) = none := by
    rw [List.findSome?_eq_none_iff]
    intro b hb
    cases hl : st.attrs.lookup b with
    | none => rfl
    | some u =>
      have := h b hb u hl
      rw [← isLibrary_iff] at this
      simp [Option.filter, this]
  rw [this]

/-- C78: get_model gives the first attribute there is, in its own order; it raises exactly when there is none of them. -/
theorem C78_model (st : St) : (∀ v, getModel st = some v ↔ FirstOf (fun _ => True) ["Value".toList, "SpiceModel".toList, "Value2".toList, "ModelFile".toList, "SpiceLine".toList, "SpiceLine2".toList, "Def_Sub".toList] st v) ∧
    (getModel st = none ↔ ∀ a ∈ ["Value".toList, "SpiceModel".toList, "Value2".toList, "ModelFile".toList, "SpiceLine".toList, "SpiceLine2".toList, "Def_Sub".toList], st.attrs.lookup a = none) := by
  constructor
  · intro v
    unfold getModel FirstOf
    rw [findSome_first]
    refine exists_congr fun before => exists_congr fun a => exists_congr fun after => and_congr Iff.rfl (and_congr_right fun _ => ?_)
    constructor
    · intro h
      exact ⟨trivial, fun b hb u hu => by rw [h b hb] at hu; simp at hu⟩
    · rintro ⟨_, h⟩ b hb
      cases hl : st.attrs.lookup b with
      | none => rfl
      | some u => exact absurd trivial (h b hb u hl)
  · unfold getModel
    rw [List.findSome?_eq_none_iff]; rfl

/-- C78: a symbol stands for a sub-circuit when its last SymbolType line says BLOCK or its last Prefix line says X or x. -/
theorem C78_subcircuit (txt : Str) (st : St) (es : List Entry) (h : Model.Asy.read txt = some st) (he : List.Forall₂ Says (linesOf txt) es) :
    isSubcircuit st = true ↔ (types es).getLast? = some "BLOCK".toList ∨ (Spec.SymbolFile.attrs es).reverse.lookup "Prefix".toList = some "X".toList := by
  obtain ⟨es', h1, _, h3⟩ := C78_read txt st h
  have : es' = es := by
    have key : ∀ {ls : List Str} {a b : List Entry}, List.Forall₂ Says ls a → List.Forall₂ Says ls b → a = b := by
      intro ls a b ha
      induction ha generalizing b with
      | nil => intro hb; cases hb; rfl
      | cons x _ ih => intro hb; cases hb with
        | cons y hb => rw [C78_unambiguous _ _ _ x y, ih hb]
    exact key h1 he
  subst this
  unfold isSubcircuit
  rw [h3.type, h3.attrs]
  simp

/-! ### Examples -/

def resistor : Str := "Version 4\nSymbolType CELL\nLINE Normal 16 88 16 96\nRECTANGLE Normal 0 0 32 64 1\nARC Normal 0 0 8 8 1 2 3 4\n".toList ++
  "WINDOW 0 36 40 Left 2\nWINDOW 3 36 76 VRight 2\nTEXT 0 0 Left 2 hello\nTEXT 0 0 Left 2 hello world\nSYMATTR Value R\nSYMATTR Prefix r\nSYMATTR Description A resistor\n".toList ++
  "SYMATTR Value2\nSYMATTR SpiceModel\tmodels.LIB \nSYMATTR Value 1k\nPIN 16 16 NONE 0\nPINATTR PinName A\nPINATTR SpiceOrder 1\nPIN 16 96 VRIGHT 8\nPINATTR PinName B\n".toList

def resistorSt : St where
  symbolType := some "CELL".toList
  attrs := [("Value".toList, "1k".toList), ("Prefix".toList, "R".toList), ("Description".toList, "A resistor".toList), ("Value2".toList, []), ("SpiceModel".toList, "models.LIB".toList)]
  pins := [{ x := 16, y := 16, text := "PinName=A;SpiceOrder=1;".toList, size := 0, type := .pin, hor := .center },
    { x := 16, y := 96, text := "PinName=B;".toList, size := 8, type := .pin, hor := .right, ver := .bottom, angle := 90 }]
  windows := [{ x := 36, y := 40, text := "0".toList, size := 2, type := .attribute },
    { x := 36, y := 76, text := "3".toList, size := 2, type := .attribute, hor := .right, angle := 90 }, { x := 0, y := 0, text := "hello".toList, size := 2, type := .comment }]
  lines := [{ x1 := 16, y1 := 88, x2 := 16, y2 := 96 }]
  shapes := [{ name := "RECTANGLE".toList, points := [(0, 0), (32, 64)], pattern := "1".toList }, { name := "ARC".toList, points := [(0, 0), (8, 8), (1, 2), (3, 4)] }]

theorem C78_sample : Model.Asy.read resistor = some resistorSt := by decide +kernel

theorem C78_sample_lookups : getLibrary resistorSt = some "models.LIB".toList ∧ getModel resistorSt = some "1k".toList ∧ isSubcircuit resistorSt = false := by
  decide +kernel

/-- C78, limits: a value of two words after PINATTR, an empty line, a line in other letters and an attribute of a pin before any pin are
refused with an exception. -/
theorem C78_refused : Model.Asy.read "PIN 0 0 NONE 0\nPINATTR PinName In +\n".toList = none ∧ Model.Asy.read "Version 4\n\nSymbolType CELL\n".toList = none ∧
    Model.Asy.read "VERSION 4\n".toList = none ∧ Model.Asy.read "PINATTR PinName A\nPIN 0 0 NONE 0\n".toList = none ∧ Model.Asy.read "Version 5\n".toList = none := by
  refine ⟨?_, ?_, ?_, ?_, ?_⟩ <;> decide +kernel

/-- C78, limit: the prefix is only found under exactly the name Prefix, though any letter case makes its value capital. -/
theorem C78_prefix_case : ∃ st, Model.Asy.read "SYMATTR PREFIX x\n".toList = some st ∧ st.attrs = [("PREFIX".toList, "X".toList)] ∧ isSubcircuit st = false := by
  refine ⟨(Model.Asy.read "SYMATTR PREFIX x\n".toList).get (by decide +kernel), by simp, ?_, ?_⟩ <;> decide +kernel

end Props.Asy
