import Verif.Model.SpiceParam
import Verif.Lemmas.ParamRegex
import Verif.Lemmas.Netlist
import Verif.Props.ParamLine

/-! C62: parameters of netlists. -/
namespace Props.SpiceParam
open Model.PyStr Model.Netlist Model.SpiceParam Lemmas.ParamRegex
open Model.ParamRegex (Match findIter named sepValue? sorted scan wordChar numChar unitChar)
open Spec.ParamLine hiding Str

/-- An element of the netlist: a `.param` line with its indentation, or anything else. -/
inductive SDir where
  | other (e : Elem)
  | params (indent : Str) (l : Line)

def SDir.elem : SDir → Elem
  | .other e => e
  | .params ind l => .prim (ind ++ l.text)

def SDir.items : SDir → List Item
  | .other _ => []
  | .params _ l => l.items

/-- Other elements: their first word can be made out, and is not .PARAM. Lines with parameters: indented by blanks and tabs, in the
grammar, the keyword a word of its own. -/
def SDir.Ok : SDir → Prop
  | .other e => look e = .skip ∨ ∃ s cmd, look e = .line s ∧ lineCommand s = some cmd ∧ cmd ≠ ".PARAM".toList
  | .params ind l => (∀ c ∈ ind, c = ' ' ∨ c = '\t') ∧ l.Ok ∧
      ∀ c, (l.items.flatMap Item.text ++ l.tail).head? = some c → c = ' ' ∨ c = '\t' ∨ c = '\r' ∨ c = '\n'

/-- The value of a parameter: that of its first definition. -/
def valueOf (p : Str) (d : List SDir) : Option Str := find p (d.flatMap SDir.items)

theorem valueOf_cons (p : Str) (e : SDir) (d : List SDir) : valueOf p (e :: d) = (find p e.items).or (valueOf p d) := by
  simp only [valueOf, List.flatMap_cons, Props.ParamLine.find_append]

theorem command_line (ind : Str) (l : Line) (h : (SDir.params ind l).Ok) : lineCommand (ind ++ l.text) = some ".PARAM".toList := by
  obtain ⟨hi, hl, hh⟩ := h
  obtain ⟨w, hk, hw, _⟩ := keyword_shape l.kw hl.keyword
  have e : ind ++ l.text = ind ++ '.' :: (w ++ (l.items.flatMap Item.text ++ l.tail)) := by simp [Line.text, hk]
  rw [e, Lemmas.Netlist.lineCommand_directive ind w _ hi]
  · have hu : (('.' :: w).map upChar = ".PARAM".toList) := by
      rw [Lemmas.Netlist.map_upChar_upper _ _ (by decide), ← hk]; exact hl.keyword
    rw [hu]
  · intro x hx
    have hx' := hw x hx
    by_contra hc
    have hc : endsWord x = true := by simpa using hc
    simp only [endsWord, Bool.or_eq_true, decide_eq_true_eq] at hc
    rcases hc with ((rfl | rfl) | rfl) | rfl <;> revert hx' <;> decide
  · cases hr : l.items.flatMap Item.text ++ l.tail with
    | nil => exact Or.inl rfl
    | cons x r =>
      right
      refine ⟨x, r, rfl, ?_⟩
      rcases hh x (by rw [hr]; rfl) with rfl | rfl | rfl | rfl <;> decide

theorem blank_space (ind : Str) (h : ∀ c ∈ ind, c = ' ' ∨ c = '\t') : ∀ c ∈ ind, isSpace c = true := by
  intro c hc; rcases h c hc with rfl | rfl <;> decide

theorem findIter_indented (ind : Str) (l : Line) (h : (SDir.params ind l).Ok) : findIter (ind ++ l.text) = spans (ind ++ l.kw).length l.items := by
  obtain ⟨hi, hl, _⟩ := h
  obtain ⟨w, hk, hw, hlen⟩ := keyword_shape l.kw hl.keyword
  have e : ind ++ l.text = (ind ++ ['.']) ++ (w ++ (l.items.flatMap Item.text ++ l.tail)) := by simp [Line.text, hk]
  rw [findIter, e, scan_nonwords (ind ++ ['.']), scan_word_fail w _ hw (fun c hc => (rest_head l.items l.tail hl.items hl.stop hl.rest c hc).2.2)
    (sepValue_first l hl), scan_items l.tail hl.stop hl.rest l.items hl.items]
  · congr 1
    rw [hk]; simp; omega
  · intro c hc
    rcases List.mem_append.1 hc with m | m
    · exact (space_facts c (blank_space ind hi c m)).1
    · rw [List.mem_singleton.1 m]; decide

/-! ### Finding -/

theorem find_split (p x : Str) : ∀ (items : List Item), find p items = some x →
    ∃ a i b, items = a ++ i :: b ∧ Same i.name p ∧ i.value = x ∧ ∀ j ∈ a, ¬ Same j.name p := by
  intro items
  induction items with
  | nil => intro h; simp [find] at h
  | cons i l ih =>
    intro h
    by_cases hs : Same i.name p
    · simp only [find, if_pos hs, Option.some.injEq] at h
      exact ⟨[], i, l, rfl, hs, h, by simp⟩
    · simp only [find, if_neg hs] at h
      obtain ⟨a, j, b, e, h1, h2, h3⟩ := ih h
      refine ⟨i :: a, j, b, by rw [e]; rfl, h1, h2, ?_⟩
      intro k hk
      rcases List.mem_cons.1 hk with rfl | m
      · exact hs
      · exact h3 k m

theorem assign_split (p v : Str) (a b : List Item) (i : Item) (h : Same i.name p) (ha : ∀ j ∈ a, ¬ Same j.name p) :
    assign p v (a ++ i :: b) = a ++ { i with value := v } :: b := by
  induction a with
  | nil => simp [assign, h]
  | cons j a ih =>
    have hj := ha j (by simp)
    simp only [List.cons_append, assign, if_neg hj, ih (fun k hk => ha k (by simp [hk]))]

theorem named_split (p : Str) (a b : List Item) (i : Item) (h : Same i.name p) (ha : ∀ j ∈ a, ¬ Same j.name p) : ∀ pos : Nat,
    named p (spans pos (a ++ i :: b)) = some ⟨i.name, i.value, pos + (a.flatMap Item.text ++ i.gap ++ i.name ++ i.sep).length,
      pos + (a.flatMap Item.text ++ i.text).length, pos + (a.flatMap Item.text ++ i.gap).length⟩ := by
  induction a with
  | nil =>
    intro pos
    have h' : upper i.name = upper p := h
    simp only [List.nil_append, spans, named, List.find?_cons, h', decide_true, List.flatMap_nil, List.length_append]
    congr 2
    omega
  | cons j a ih =>
    intro pos
    have hj : ¬ upper j.name = upper p := ha j (by simp)
    have := ih (fun k hk => ha k (by simp [hk])) (pos + j.text.length)
    simp only [List.cons_append, spans, named, List.find?_cons, hj, decide_false]
    simp only [named] at this
    rw [this]
    simp only [List.flatMap_cons, List.length_append]
    congr 2 <;> omega

theorem named_none (p : Str) : ∀ (items : List Item) (pos : Nat), find p items = none → named p (spans pos items) = none := by
  intro items pos h
  exact (named_spans p [] items pos (List.replicate pos 'x') [] (by simp)).1 h

theorem find_param (p : Str) : ∀ (d : List SDir), (∀ x ∈ d, x.Ok) →
    (valueOf p d = none → findParam p (d.map SDir.elem) = .ok none) ∧
    (∀ x, valueOf p d = some x → ∃ pre ind l post m, d = pre ++ .params ind l :: post ∧ (∀ e ∈ pre, find p e.items = none) ∧
      find p l.items = some x ∧ named p (findIter (ind ++ l.text)) = some m ∧ m.value = x ∧ findParam p (d.map SDir.elem) = .ok (some (pre.length, m))) := by
  intro d
  induction d with
  | nil => intro _; exact ⟨fun _ => rfl, fun x hx => by simp [valueOf, find] at hx⟩
  | cons e d ih =>
    intro h
    obtain ⟨ih1, ih2⟩ := ih (fun x hx => h x (by simp [hx]))
    have he := h e (by simp)
    have pass : find p e.items = none →
        findParam p ((e :: d).map SDir.elem) = (match findParam p (d.map SDir.elem) with
          | .error x => .error x
          | .ok r => .ok (r.map (fun q => (q.1 + 1, q.2)))) := by
      intro hn
      cases e with
      | other e =>
        simp only [List.map_cons, SDir.elem, findParam]
        rcases he with hs | ⟨s, cmd, hs, hc, hne⟩
        · rw [hs]; rfl
        · rw [hs]; simp only; rw [hc]; simp only; rw [if_neg hne]; rfl
      | params ind l =>
        simp only [List.map_cons, SDir.elem, findParam, look]
        rw [command_line ind l he]
        simp only [if_true]
        have : named p (findIter (ind ++ l.text)) = none := by
          rw [findIter_indented ind l he]; exact named_none p _ _ hn
        rw [this]
        rfl
    rw [valueOf_cons]
    cases hf : find p e.items with
    | none =>
      simp only [Option.none_or]
      rw [pass hf]
      refine ⟨fun hn => by rw [ih1 hn]; rfl, fun x hx => ?_⟩
      obtain ⟨pre, ind, l, post, m, h1, h2, h3, h4, h5, h6⟩ := ih2 x hx
      refine ⟨e :: pre, ind, l, post, m, by rw [h1]; rfl, ?_, h3, h4, h5, by rw [h6]; rfl⟩
      intro k hk
      rcases List.mem_cons.1 hk with rfl | mm
      · exact hf
      · exact h2 k mm
    | some y =>
      refine ⟨fun hn => by simp at hn, fun x hx => ?_⟩
      simp only [Option.some_or, Option.some.injEq] at hx
      subst hx
      cases e with
      | other e => simp [SDir.items, find] at hf
      | params ind l =>
        obtain ⟨a, i, b, e1, e2, e3, e4⟩ := find_split p y l.items hf
        have hnm := named_split p a b i e2 e4 (ind ++ l.kw).length
        rw [← e1, ← findIter_indented ind l he] at hnm
        refine ⟨[], ind, l, d, _, rfl, by simp, hf, hnm, e3, ?_⟩
        simp only [List.map_cons, SDir.elem, findParam, look]
        rw [command_line ind l he]
        simp only [if_true]
        rw [hnm]
        rfl

/-- get_parameter: the value of the first definition; it raises "not found" only when there is none. -/
theorem C62_get (ed : Ed) (d : List SDir) (hd : ed.netlist = d.map SDir.elem) (h : ∀ x ∈ d, x.Ok) (p : Str) :
    getParam ed p = .ok (valueOf p d) := by
  obtain ⟨h1, h2⟩ := find_param p d h
  unfold getParam
  rw [hd]
  cases hv : valueOf p d with
  | none => rw [h1 hv]; rfl
  | some x =>
    obtain ⟨_, _, _, _, m, _, _, _, _, h5, h6⟩ := h2 x hv
    rw [h6]; simp [h5]

/-! ### Replacing a value -/

theorem rstrip_visible (a b : Str) (c : Char) (hc : isSpace c = false) : rstrip (a ++ [c] ++ b) = a ++ [c] ++ rstrip b := by
  unfold rstrip
  have e : (a ++ [c] ++ b).reverse = b.reverse ++ (c :: a.reverse) := by simp
  rw [e]
  have : ∀ (l r : Str), isSpace c = false → (l ++ c :: r).dropWhile isSpace = l.dropWhile isSpace ++ c :: r := by
    intro l r h
    induction l with
    | nil => simp [h]
    | cons x l ih =>
      simp only [List.cons_append, List.dropWhile_cons]
      split
      · exact ih
      · rfl
  rw [this _ _ hc]
  simp

theorem value_last (v : Str) (h : Value v) : ∃ a c, v = a ++ [c] ∧ isSpace c = false := by
  have key : ∀ c : Char, (NumChar c ∨ c.isAlpha = true ∨ c = '%') → isSpace c = false := by
    intro c hc
    by_contra hs
    have f := space_facts c (by simpa using hs)
    rcases hc with h1 | h1
    · rw [(num_iff c).2 h1] at f; exact absurd f.2.1 (by decide)
    · rw [(unit_iff c).2 h1] at f; exact absurd f.2.2.1 (by decide)
  rcases h with ⟨b, rfl, hb⟩ | ⟨b, rfl, hb⟩ | ⟨n, u, rfl, hn, h1, h2⟩
  · exact ⟨'{' :: b, '}', rfl, by decide⟩
  · exact ⟨'"' :: b, '"', rfl, by decide⟩
  · have hne : n ++ u ≠ [] := by simp [hn]
    refine ⟨(n ++ u).dropLast, (n ++ u).getLast hne, (List.dropLast_append_getLast hne).symm, ?_⟩
    apply key
    rcases List.mem_append.1 (List.getLast_mem hne) with m | m
    · exact Or.inl (h1 _ m)
    · exact Or.inr (h2 _ m)

theorem value_strip (v : Str) (h : Value v) : strip v = v := by
  obtain ⟨c, v', h1, h2, _⟩ := value_head v h
  obtain ⟨a, d, h3, h4⟩ := value_last v h
  refine Lemmas.FloatUnit.strip_visible ?_ ?_
  · intro x hx; rw [h1] at hx; simp at hx; subst hx; exact h2
  · intro x hx; rw [h3] at hx; simp at hx; subst hx; exact h4

/-- What a line looks like after one of its values was replaced: the same names in the same order, the value of the first with that
name replaced, at most one blank more before or after a value, and the comment kept. -/
structure Replaced (p v : Str) (l l' : Line) : Prop where
  ok : l'.Ok
  kw : l'.kw = l.kw
  pairs : l'.items.map (fun i => (i.name, i.value)) = (assign p v l.items).map (fun i => (i.name, i.value))
  layout : List.Forall₂ (fun i j : Item => (j.gap = i.gap ∨ j.gap = ' ' :: i.gap) ∧ (j.sep = i.sep ∨ j.sep = i.sep ++ [' '])) l.items l'.items
  head : (l'.items.flatMap Item.text ++ l'.tail).head? = (l.items.flatMap Item.text ++ l.tail).head?
  comment : l'.tail = rstrip l.tail ++ ['\n'] ∨ l'.tail = rstrip (' ' :: l.tail) ++ ['\n']

theorem insert_eq (P x R v : Str) (d : Char) (hv : Value v) :
    ∃ s1 s2 : Str, (s1 = [] ∨ s1 = [' ']) ∧ (s2 = [] ∨ s2 = [' ']) ∧
      insertSection (P ++ [d] ++ x ++ R) (P ++ [d]).length ((P ++ [d]).length + x.length) v = strip (P ++ [d] ++ (s1 ++ v ++ s2) ++ R) := by
  have hne : v ≠ [] := by obtain ⟨c, v', rfl, _⟩ := value_head v hv; simp
  have h1 : (P ++ [d] ++ x ++ R).take (P ++ [d]).length = P ++ [d] := by
    rw [List.append_assoc, List.take_left]
  have h2 : (P ++ [d] ++ x ++ R).drop ((P ++ [d]).length + x.length) = R := by
    rw [show (P ++ [d]).length + x.length = (P ++ [d] ++ x).length by simp; omega, List.drop_left]
  unfold insertSection
  rw [if_neg (by simp), if_neg hne]
  simp only [value_strip v hv, h1, h2]
  split
  · split
    · exact ⟨[' '], [' '], by simp, by simp, by simp⟩
    · exact ⟨[' '], [], by simp, by simp, by simp⟩
  · split
    · exact ⟨[], [' '], by simp, by simp, by simp⟩
    · exact ⟨[], [], by simp, by simp, by simp⟩

theorem text_last (X : Str) (items : List Item) (h : ∀ i ∈ items, i.Ok) (hne : items ≠ []) : ∃ a c, X ++ items.flatMap Item.text = a ++ [c] ∧ isSpace c = false := by
  rcases List.eq_nil_or_concat items with e | ⟨l, i, e⟩
  · exact absurd e hne
  · subst e
    obtain ⟨a, c, e1, e2⟩ := value_last i.value (h i (by simp)).2.2.2.2
    refine ⟨X ++ l.flatMap Item.text ++ i.gap ++ i.name ++ i.sep ++ a, c, ?_, e2⟩
    simp [Item.text, e1]

theorem strip_line (ind kw : Str) (items : List Item) (t : Str) (hi : ∀ c ∈ ind, c = ' ' ∨ c = '\t') (hk : upper kw = ".PARAM".toList)
    (h : ∀ i ∈ items, i.Ok) (hne : items ≠ []) :
    strip (ind ++ kw ++ items.flatMap Item.text ++ t) = kw ++ items.flatMap Item.text ++ rstrip t := by
  obtain ⟨w, e, _⟩ := keyword_shape kw hk
  have hl : lstrip (ind ++ kw ++ items.flatMap Item.text ++ t) = kw ++ items.flatMap Item.text ++ t := by
    unfold lstrip
    have hs := blank_space ind hi
    rw [e]
    clear e hi
    induction ind with
    | nil => rfl
    | cons c ind ih =>
      simp only [List.cons_append, List.dropWhile_cons, hs c (by simp), if_true]
      simpa using ih (fun x hx => hs x (by simp [hx]))
  unfold strip
  rw [hl]
  obtain ⟨a, c, e1, e2⟩ := text_last kw items h hne
  rw [e1]
  exact rstrip_visible a t c e2

theorem rstrip_prefix (t : Str) : ∃ s, t = rstrip t ++ s ∧ ∀ c ∈ s, isSpace c = true := by
  refine ⟨(t.reverse.takeWhile isSpace).reverse, ?_, ?_⟩
  · unfold rstrip
    rw [← List.reverse_append, List.takeWhile_append_dropWhile, List.reverse_reverse]
  · intro c hc
    exact List.mem_takeWhile_imp (List.mem_reverse.1 hc)

/-- The tail of the line stays harmless. -/
theorem tail_ok (t : Str) (h : ∀ c ∈ t, ¬ NumChar c ∧ c ≠ '{' ∧ c ≠ '"') (hs : ∀ c, t.head? = some c → ¬ NameChar c ∧ c ≠ '%') :
    (∀ c ∈ rstrip t ++ ['\n'], ¬ NumChar c ∧ c ≠ '{' ∧ c ≠ '"') ∧ (∀ c, (rstrip t ++ ['\n']).head? = some c → ¬ NameChar c ∧ c ≠ '%') := by
  obtain ⟨s, e, _⟩ := rstrip_prefix t
  constructor
  · intro c hc
    rcases List.mem_append.1 hc with m | m
    · exact h c (by rw [e]; exact List.mem_append_left _ m)
    · rw [List.mem_singleton.1 m]; unfold NumChar; decide
  · intro c hc
    cases hr : rstrip t with
    | nil => rw [hr] at hc; simp at hc; subst hc; unfold NameChar; decide
    | cons x r =>
      rw [hr] at hc e
      apply hs c
      rw [e]; simpa using hc

theorem tail_ok_blank (t : Str) (h : ∀ c ∈ t, ¬ NumChar c ∧ c ≠ '{' ∧ c ≠ '"') :
    (∀ c ∈ ' ' :: t, ¬ NumChar c ∧ c ≠ '{' ∧ c ≠ '"') ∧ (∀ c, (' ' :: t).head? = some c → ¬ NameChar c ∧ c ≠ '%') := by
  constructor
  · intro c hc
    rcases List.mem_cons.1 hc with rfl | m
    · unfold NumChar; decide
    · exact h c m
  · intro c hc
    simp at hc; subst hc; unfold NameChar; decide

theorem sep_pad (s t : Str) (h : Sep s) (ht : t = [] ∨ t = [' ']) : Sep (s ++ t) := by
  rcases ht with rfl | rfl
  · simpa using h
  · have hb : Blank [' '] := by unfold Blank; decide
    rcases h with ⟨a, b, rfl, h1, h2⟩ | ⟨h1, h2⟩
    · refine Or.inl ⟨a, b ++ [' '], by simp, h1, ?_⟩
      intro c hc
      rcases List.mem_append.1 hc with m | m
      · exact h2 c m
      · exact hb c m
    · refine Or.inr ⟨?_, by simp⟩
      intro c hc
      rcases List.mem_append.1 hc with m | m
      · exact h1 c m
      · exact hb c m

theorem sep_last (s : Str) (h : Sep s) : ∃ a d, s = a ++ [d] := by
  have hne : s ≠ [] := by
    rcases h with ⟨a, b, rfl, _⟩ | ⟨_, h2⟩
    · simp
    · rintro rfl; simp at h2
  exact ⟨s.dropLast, s.getLast hne, (List.dropLast_append_getLast hne).symm⟩

theorem items_head (items items' : List Item) (t t' : Str) (hne : items ≠ []) (h : ∀ i ∈ items, i.Ok)
    (hh : items'.head?.map Item.gap = items.head?.map Item.gap) : (items'.flatMap Item.text ++ t').head? = (items.flatMap Item.text ++ t).head? := by
  cases items with
  | nil => exact absurd rfl hne
  | cons i l =>
    cases items' with
    | nil => simp at hh
    | cons j l' =>
      have hg := (h i (by simp)).1
      obtain ⟨c, g, e⟩ := List.exists_cons_of_ne_nil hg
      have : j.gap = i.gap := by simpa using hh
      simp [Item.text, this, e]

/-- Replacing the value in the text of the line. -/
theorem replace_line (ind : Str) (l : Line) (h : (SDir.params ind l).Ok) (p v x : Str) (hv : Value v) (hf : find p l.items = some x) :
    ∃ (m : Match) (l' : Line), named p (findIter (ind ++ l.text)) = some m ∧ Replaced p v l l' ∧
      insertSection (ind ++ l.text) m.start m.stop v ++ ['\n'] = l'.text := by
  obtain ⟨a, i, b, e1, e2, e3, e4⟩ := find_split p x l.items hf
  have hnm := named_split p a b i e2 e4 (ind ++ l.kw).length
  rw [← e1, ← findIter_indented ind l h] at hnm
  obtain ⟨hi, hl, hh⟩ := h
  have hit := hl.items
  rw [e1] at hit
  have hiok : i.Ok := hit i (by simp)
  obtain ⟨sa, d, hsep⟩ := sep_last i.sep hiok.2.2.2.1
  obtain ⟨s1, s2, hs1, hs2, hins⟩ := insert_eq (ind ++ l.kw ++ a.flatMap Item.text ++ i.gap ++ i.name ++ sa) i.value (b.flatMap Item.text ++ l.tail) v d hv
  -- the new line
  let i' : Item := { i with sep := i.sep ++ s1, value := v }
  have hi' : i'.Ok := ⟨hiok.1, hiok.2.1, hiok.2.2.1, sep_pad _ _ hiok.2.2.2.1 hs1, hv⟩
  have hsl : i.sep ++ s1 = i.sep ∨ i.sep ++ s1 = i.sep ++ [' '] := by rcases hs1 with r | r <;> simp [r]
  have hrefl : ∀ q : List Item, List.Forall₂ (fun i j : Item => (j.gap = i.gap ∨ j.gap = ' ' :: i.gap) ∧ (j.sep = i.sep ∨ j.sep = i.sep ++ [' '])) q q := by
    intro q; induction q with
    | nil => exact .nil
    | cons k q ih => exact .cons ⟨Or.inl rfl, Or.inl rfl⟩ ih
  have etext : ind ++ l.text = ind ++ l.kw ++ a.flatMap Item.text ++ i.gap ++ i.name ++ sa ++ [d] ++ i.value ++ (b.flatMap Item.text ++ l.tail) := by
    simp [Line.text, e1, Item.text, hsep]
  have estart : (ind ++ l.kw).length + (a.flatMap Item.text ++ i.gap ++ i.name ++ i.sep).length = (ind ++ l.kw ++ a.flatMap Item.text ++ i.gap ++ i.name ++ sa ++ [d]).length := by
    simp [hsep]; omega
  have estop : (ind ++ l.kw).length + (a.flatMap Item.text ++ i.text).length = (ind ++ l.kw ++ a.flatMap Item.text ++ i.gap ++ i.name ++ sa ++ [d]).length + i.value.length := by
    simp [Item.text, hsep]; omega
  have hfirst : ∀ its : List Item, its.head?.map Item.name = l.items.head?.map Item.name → ∀ j, its.head? = some j → ¬ NumberLike j.name := by
    intro its he j hj
    rw [hj] at he
    cases hq : l.items.head? with
    | none => rw [hq] at he; simp at he
    | some k =>
      rw [hq] at he
      have : j.name = k.name := by simpa using he
      rw [this]; exact hl.first k hq
  have hne : l.items ≠ [] := by rw [e1]; simp
  cases hb : b with
  | nil =>
    subst hb
    have hits : ∀ k ∈ a ++ [i'], k.Ok := by
      intro k hk
      rcases List.mem_append.1 hk with m | m
      · exact hit k (by simp [m])
      · rw [List.mem_singleton.1 m]; exact hi'
    let l' : Line := ⟨l.kw, a ++ [i'], rstrip (s2 ++ l.tail) ++ ['\n']⟩
    have htail : (∀ c ∈ s2 ++ l.tail, ¬ NumChar c ∧ c ≠ '{' ∧ c ≠ '"') ∧ (∀ c, (s2 ++ l.tail).head? = some c → ¬ NameChar c ∧ c ≠ '%') := by
      rcases hs2 with r | r
      · rw [r]; exact ⟨hl.rest, hl.stop⟩
      · rw [r]; exact tail_ok_blank _ hl.rest
    have hto := tail_ok _ htail.1 htail.2
    refine ⟨_, l', hnm, ⟨?_, rfl, ?_, ?_, ?_, ?_⟩, ?_⟩
    · exact ⟨hl.keyword, hits, hfirst _ (by rw [e1]; cases a <;> rfl), hto.1, hto.2⟩
    · rw [e1, assign_split p v a [] i e2 e4]; simp [l', i']
    · rw [e1]; exact List.rel_append (hrefl a) (.cons ⟨Or.inl rfl, hsl⟩ .nil)
    · exact items_head _ _ _ _ hne hl.items (by rw [e1]; cases a <;> rfl)
    · rcases hs2 with r | r <;> simp [l', r]
    · simp only
      rw [etext, estart, estop, hins]
      have : ind ++ l.kw ++ a.flatMap Item.text ++ i.gap ++ i.name ++ sa ++ [d] ++ (s1 ++ v ++ s2) ++ (([] : List Item).flatMap Item.text ++ l.tail) =
          ind ++ l.kw ++ (a ++ [i']).flatMap Item.text ++ (s2 ++ l.tail) := by
        simp [Item.text, i', hsep]
      rw [this, strip_line ind l.kw _ _ hi hl.keyword hits (by simp)]
      simp [Line.text, l']
  | cons j b' =>
    subst hb
    let j' : Item := { j with gap := s2 ++ j.gap }
    have hjok : j.Ok := hit j (by simp)
    have hj' : j'.Ok := by
      refine ⟨?_, ?_, hjok.2.2⟩
      · simp [j', hjok.1]
      · intro c hc
        rcases List.mem_append.1 hc with m | m
        · rcases hs2 with r | r
          · rw [r] at m; simp at m
          · rw [r] at m; rw [List.mem_singleton.1 m]; decide
        · exact hjok.2.1 c m
    have hits : ∀ k ∈ a ++ i' :: j' :: b', k.Ok := by
      intro k hk
      rcases List.mem_append.1 hk with m | m
      · exact hit k (by simp [m])
      · rcases List.mem_cons.1 m with rfl | m
        · exact hi'
        · rcases List.mem_cons.1 m with rfl | m
          · exact hj'
          · exact hit k (by simp [m])
    let l' : Line := ⟨l.kw, a ++ i' :: j' :: b', rstrip l.tail ++ ['\n']⟩
    have hto := tail_ok _ hl.rest hl.stop
    refine ⟨_, l', hnm, ⟨?_, rfl, ?_, ?_, ?_, ?_⟩, ?_⟩
    · exact ⟨hl.keyword, hits, hfirst _ (by rw [e1]; cases a <;> rfl), hto.1, hto.2⟩
    · rw [e1, assign_split p v a (j :: b') i e2 e4]; simp [l', i', j']
    · rw [e1]
      refine List.rel_append (hrefl a) (.cons ⟨Or.inl rfl, hsl⟩ (.cons ⟨?_, Or.inl rfl⟩ (hrefl b')))
      rcases hs2 with r | r <;> simp [j', r]
    · exact items_head _ _ _ _ hne hl.items (by rw [e1]; cases a <;> rfl)
    · exact Or.inl rfl
    · simp only
      rw [etext, estart, estop, hins]
      have : ind ++ l.kw ++ a.flatMap Item.text ++ i.gap ++ i.name ++ sa ++ [d] ++ (s1 ++ v ++ s2) ++ ((j :: b').flatMap Item.text ++ l.tail) =
          ind ++ l.kw ++ (a ++ i' :: j' :: b').flatMap Item.text ++ l.tail := by
        simp [Item.text, i', j', hsep]
      rw [this, strip_line ind l.kw _ _ hi hl.keyword hits (by simp)]
      simp [Line.text, l']

/-- Replaced lines are lines again, without indentation. -/
theorem replaced_ok (ind : Str) (l l' : Line) (p v : Str) (h : (SDir.params ind l).Ok) (hr : Replaced p v l l') : (SDir.params [] l').Ok := by
  refine ⟨by simp, hr.ok, ?_⟩
  rw [hr.head]; exact h.2.2

theorem find_pairs (q : Str) : ∀ (a b : List Item), a.map (fun i => (i.name, i.value)) = b.map (fun i => (i.name, i.value)) → find q a = find q b := by
  intro a
  induction a with
  | nil => intro b h; cases b with
    | nil => rfl
    | cons => simp at h
  | cons i a ih =>
    intro b h
    cases b with
    | nil => simp at h
    | cons j b =>
      simp only [List.map_cons, List.cons.injEq, Prod.mk.injEq] at h
      simp only [find, h.1.1, h.1.2, ih b h.2]

theorem record_facts (ed : Ed) (nl : List Elem) (p v : Str) (k : Model.Updates.UpdateType) :
    (record { ed with netlist := nl } p v k).netlist = nl ∧ (record { ed with netlist := nl } p v k).perm = ed.perm ∧
    (record { ed with netlist := nl } p v k).calls = if ed.perm = .inform then ed.calls ++ [(p, v, k)] else ed.calls := by
  unfold record
  simp only
  split <;> simp_all

theorem modify_at (pre : List Elem) (x : Elem) (post : List Elem) (f : Elem → Elem) : (pre ++ x :: post).modify pre.length f = pre ++ f x :: post := by
  induction pre with
  | nil => rfl
  | cons y pre ih => simp only [List.cons_append, List.length_cons, List.modify_succ_cons, ih]

/-- set_parameter of a parameter the netlist defines: the first definition is replaced, in place; every other element is left as it
is; the change is recorded. -/
theorem C62_set (ed : Ed) (d : List SDir) (hd : ed.netlist = d.map SDir.elem) (h : ∀ x ∈ d, x.Ok) (hp : ed.perm ≠ .deny) (p v x : Str) (hv : Value v)
    (hx : valueOf p d = some x) :
    ∃ (ed' : Ed) (pre : List SDir) (ind : Str) (l l' : Line) (post : List SDir), setParam ed p v = .ok ed' ∧
      d = pre ++ .params ind l :: post ∧ (∀ e ∈ pre, find p e.items = none) ∧ find p l.items = some x ∧ Replaced p v l l' ∧
      ed'.netlist = (pre ++ .params [] l' :: post).map SDir.elem ∧ ed'.perm = ed.perm ∧
      ed'.calls = if ed.perm = .inform then ed.calls ++ [(p, v, .updateParameter)] else ed.calls := by
  obtain ⟨_, h2⟩ := find_param p d h
  obtain ⟨pre, ind, l, post, m, e1, e2, e3, e4, _, e6⟩ := h2 x hx
  have hl := h (.params ind l) (by rw [e1]; simp)
  obtain ⟨m', l', f1, f2, f3⟩ := replace_line ind l hl p v x hv e3
  rw [e4] at f1
  have : m = m' := by simpa using f1
  subst this
  refine ⟨_, pre, ind, l, l', post, by unfold setParam; rw [if_neg hp, hd, e6], e1, e2, e3, f2, ?_, (record_facts _ _ _ _ _).2.1, (record_facts _ _ _ _ _).2.2⟩
  rw [(record_facts _ _ _ _ _).1, e1, List.map_append, List.map_cons, show pre.length = (pre.map SDir.elem).length by simp, modify_at]
  simp [SDir.elem, setObj, f3]

/-- set_parameter of a parameter the netlist does not define: one line is added, before the last two. -/
theorem C62_set_new (ed : Ed) (d : List SDir) (hd : ed.netlist = d.map SDir.elem) (h : ∀ x ∈ d, x.Ok) (hp : ed.perm ≠ .deny) (p v : Str)
    (hx : valueOf p d = none) :
    ∃ ed' : Ed, setParam ed p v = .ok ed' ∧
      ed'.netlist = ed.netlist.take (ed.netlist.length - 2) ++
        .prim (".PARAM ".toList ++ p ++ "=".toList ++ v ++ "  ; Batch instruction\n".toList) :: ed.netlist.drop (ed.netlist.length - 2) ∧
      ed'.perm = ed.perm ∧ ed'.calls = if ed.perm = .inform then ed.calls ++ [(p, v, .addParameter)] else ed.calls := by
  obtain ⟨h1, _⟩ := find_param p d h
  have hline : paramLine p v = ".PARAM ".toList ++ p ++ "=".toList ++ v ++ "  ; Batch instruction\n".toList := by
    have e : "=".toList = ['='] := rfl
    unfold paramLine
    generalize "  ; Batch instruction\n".toList = T
    generalize ".PARAM ".toList = K
    rw [e]
    simp only [List.append_assoc, List.cons_append, List.nil_append]
  obtain ⟨r1, r2, r3⟩ := record_facts ed (addParameter ed.netlist p v) p v .addParameter
  refine ⟨record { ed with netlist := addParameter ed.netlist p v } p v .addParameter, ?_, ?_, r2, r3⟩
  · unfold setParam
    rw [if_neg hp, hd, h1 hx]
  · rw [r1, ← hline]
    simp only [addParameter, insertAt]

/-- A read-only netlist is not changed: the call raises. -/
theorem C62_denied (ed : Ed) (p v : Str) (h : ed.perm = .deny) : setParam ed p v = .error .value ∧ delParam ed p = .error .value := by
  unfold setParam delParam
  simp [h]

/-- The line added for a new parameter. -/
def newLine (p v : Str) : Line := ⟨".PARAM".toList, [⟨" ".toList, p, "=".toList, v⟩], "  ; Batch instruction\n".toList⟩

theorem newLine_ok (p v : Str) (hp : Name p) (hn : ¬ NumberLike p) (hv : Value v) : (SDir.params [] (newLine p v)).Ok := by
  refine ⟨by simp, ⟨rfl, ?_, ?_, ?_, ?_⟩, ?_⟩
  · intro i hi
    simp only [newLine, List.mem_singleton] at hi
    subst hi
    exact ⟨by simp, show Blank " ".toList by unfold Blank; decide, hp, Or.inl ⟨[], [], rfl, by simp [Blank], by simp [Blank]⟩, hv⟩
  · intro i hi
    simp only [newLine, List.head?_cons, Option.some.injEq] at hi
    subst hi; exact hn
  · show ∀ c ∈ "  ; Batch instruction\n".toList, ¬ NumChar c ∧ c ≠ '{' ∧ c ≠ '"'
    unfold NumChar; decide
  · show ∀ c, "  ; Batch instruction\n".toList.head? = some c → ¬ NameChar c ∧ c ≠ '%'
    intro c hc
    have : c = ' ' := by simpa using hc.symm
    subst this; unfold NameChar; decide
  · intro c hc
    have : c = ' ' := by simpa [newLine, Item.text] using hc.symm
    exact Or.inl this

/-- One call: what the document is afterwards, and what its parameters are. -/
theorem set_step (ed : Ed) (d : List SDir) (hd : ed.netlist = d.map SDir.elem) (h : ∀ x ∈ d, x.Ok) (hp : ed.perm ≠ .deny) (p v : Str) (hn : Name p)
    (hnl : ¬ NumberLike p) (hv : Value v) :
    ∃ (ed' : Ed) (d' : List SDir), setParam ed p v = .ok ed' ∧ ed'.netlist = d'.map SDir.elem ∧ (∀ x ∈ d', x.Ok) ∧ ed'.perm = ed.perm ∧
      ∀ q, valueOf q d' = if Same q p then some v else valueOf q d := by
  cases hx : valueOf p d with
  | some x =>
    obtain ⟨ed', pre, ind, l, l', post, e1, e2, e3, e4, e5, e6, e7, _⟩ := C62_set ed d hd h hp p v x hv hx
    refine ⟨ed', _, e1, e6, ?_, e7, ?_⟩
    · intro y hy
      rcases List.mem_append.1 hy with m | m
      · exact h y (by rw [e2]; simp [m])
      · rcases List.mem_cons.1 m with rfl | m
        · exact replaced_ok ind l l' p v (h _ (by rw [e2]; simp)) e5
        · exact h y (by rw [e2]; simp [m])
    · intro q
      have hfq : find q l'.items = if Same q p then some v else find q l.items := by
        rw [find_pairs q _ _ e5.pairs, Props.ParamLine.find_assign]
        by_cases hs : Same q p
        · simp [hs, Props.ParamLine.find_same p q hs, e4]
        · simp [hs]
      have hpre : Same q p → find q (pre.flatMap SDir.items) = none := by
        intro hs
        rw [Props.ParamLine.find_same p q hs]
        clear e2 e6
        induction pre with
        | nil => rfl
        | cons e pre ih =>
          rw [List.flatMap_cons, Props.ParamLine.find_append, e3 e (by simp), ih (fun k hk => e3 k (by simp [hk]))]; rfl
      have hd2 : ∀ L : Line, ∀ w : Str, valueOf q (pre ++ .params w L :: post) = (find q (pre.flatMap SDir.items)).or ((find q L.items).or (find q (post.flatMap SDir.items))) := by
        intro L w
        simp only [valueOf, List.flatMap_append, List.flatMap_cons, Props.ParamLine.find_append, SDir.items]
      rw [e2, hd2, hd2, hfq]
      by_cases hs : Same q p
      · rw [if_pos hs, if_pos hs, hpre hs]; rfl
      · rw [if_neg hs, if_neg hs]
  | none =>
    obtain ⟨ed', e1, e2, e3, _⟩ := C62_set_new ed d hd h hp p v hx
    refine ⟨ed', d.take (d.length - 2) ++ .params [] (newLine p v) :: d.drop (d.length - 2), e1, ?_, ?_, e3, ?_⟩
    · rw [e2, hd]
      simp [SDir.elem, newLine, Line.text, Item.text, List.map_take, List.map_drop]
    · intro y hy
      rcases List.mem_append.1 hy with m | m
      · exact h y (List.mem_of_mem_take m)
      · rcases List.mem_cons.1 m with rfl | m
        · exact newLine_ok p v hn hnl hv
        · exact h y (List.mem_of_mem_drop m)
    · intro q
      have hsplit : ∀ n : Nat, valueOf q d = (valueOf q (d.take n)).or (valueOf q (d.drop n)) := by
        intro n
        conv_lhs => rw [← List.take_append_drop n d]
        simp only [valueOf, List.flatMap_append, Props.ParamLine.find_append]
      have : valueOf q (d.take (d.length - 2) ++ .params [] (newLine p v) :: d.drop (d.length - 2)) =
          (valueOf q (d.take (d.length - 2))).or ((find q (newLine p v).items).or (valueOf q (d.drop (d.length - 2)))) := by
        simp only [valueOf, List.flatMap_append, List.flatMap_cons, Props.ParamLine.find_append, SDir.items]
      rw [this]
      by_cases hs : Same q p
      · have hq : valueOf q d = none := by rw [← hx]; exact Props.ParamLine.find_same p q hs _
        have := hsplit (d.length - 2)
        rw [hq] at this
        have h0 : valueOf q (d.take (d.length - 2)) = none := by
          cases hz : valueOf q (d.take (d.length - 2)) with
          | none => rfl
          | some z => rw [hz] at this; simp at this
        have hpq : Same p q := hs.symm
        rw [if_pos hs, h0]
        simp [newLine, find, hpq]
      · have hpq : ¬ Same p q := fun z => hs z.symm
        rw [if_neg hs, hsplit (d.length - 2)]
        simp [newLine, find, hpq]

/-- Several calls; one that raises changes nothing. -/
def setMany (ed : Ed) : List (Str × Str) → Ed
  | [] => ed
  | (p, v) :: l => match setParam ed p v with
    | .ok ed' => setMany ed' l
    | .error _ => setMany ed l

/-- Reading after any sequence of set_parameter calls: the last value set under that name in any letter case, otherwise what the
netlist said. -/
theorem C62_history (ops : List (Str × Str)) (hops : ∀ o ∈ ops, Name o.1 ∧ ¬ NumberLike o.1 ∧ Value o.2) :
    ∀ (ed : Ed) (d : List SDir), ed.netlist = d.map SDir.elem → (∀ x ∈ d, x.Ok) → ed.perm ≠ .deny → ∀ q : Str,
      getParam (setMany ed ops) q = .ok (((ops.reverse.find? (fun o => decide (Same q o.1))).map Prod.snd).or (valueOf q d)) := by
  induction ops with
  | nil => intro ed d hd h _ q; exact C62_get ed d hd h q
  | cons o ops ih =>
    intro ed d hd h hp q
    obtain ⟨p, v⟩ := o
    obtain ⟨hn, hnl, hv⟩ := hops (p, v) (by simp)
    obtain ⟨ed', d', e1, e2, e3, e4, e5⟩ := set_step ed d hd h hp p v hn hnl hv
    have := ih (fun o ho => hops o (by simp [ho])) ed' d' e2 e3 (by rw [e4]; exact hp) q
    simp only [setMany, e1]
    rw [this]
    simp only [List.reverse_cons, List.find?_append, List.find?_cons, List.find?_nil]
    cases hf : ops.reverse.find? (fun o => decide (Same q o.1)) with
    | some o => simp
    | none =>
      simp only [Option.none_or, Option.map_none, e5]
      by_cases hs : Same q p
      · simp [hs]
      · simp [hs]

/-! ### Names -/

/-- For the list of names, control sections are looked at too. -/
def NamesOk : SDir → Prop
  | .other e => lookNames e = .skip ∨ ∃ s cmd, lookNames e = .line s ∧ lineCommand s = some cmd ∧ cmd ≠ ".PARAM".toList
  | .params _ _ => True

theorem line_names_all : ∀ (d : List SDir), (∀ x ∈ d, x.Ok ∧ NamesOk x) → lineNames (d.map SDir.elem) = .ok ((d.flatMap SDir.items).map (fun i => upper i.name)) := by
  intro d
  induction d with
  | nil => intro _; rfl
  | cons e d ih =>
    intro h
    have ih' := ih (fun x hx => h x (by simp [hx]))
    obtain ⟨he, hn⟩ := h e (by simp)
    cases e with
    | other e =>
      simp only [List.map_cons, SDir.elem, lineNames, List.flatMap_cons, SDir.items, List.nil_append]
      rcases hn with hs | ⟨s, cmd, hs, hc, hne⟩
      · rw [hs]; exact ih'
      · rw [hs]; simp only; rw [hc]; simp only; rw [ih', if_neg hne]; rfl
    | params ind l =>
      simp only [List.map_cons, SDir.elem, lineNames, lookNames, look, List.flatMap_cons, SDir.items]
      rw [command_line ind l he]
      simp only
      rw [ih', findIter_indented ind l he]
      simp only [if_true, List.map_append]
      have : ∀ (items : List Item) (n : Nat), (spans n items).map (fun m => upper m.name) = items.map (fun i => upper i.name) := by
        intro items
        induction items with
        | nil => intro n; rfl
        | cons i t iht => intro n; simp only [spans, List.map_cons, iht]
      rw [this]

/-- get_all_parameter_names: every defined name in upper case, as often as it is defined, in order. -/
theorem C62_names (ed : Ed) (d : List SDir) (hd : ed.netlist = d.map SDir.elem) (h : ∀ x ∈ d, x.Ok ∧ NamesOk x) :
    ∃ r : List Str, Model.SpiceParam.allNames ed = .ok r ∧ r.Perm ((d.flatMap SDir.items).map (fun i => upper i.name)) ∧ r.Pairwise (· ≤ ·) := by
  unfold Model.SpiceParam.allNames
  rw [hd, line_names_all d h]
  exact ⟨_, rfl, Props.ParamLine.sorted_spec _⟩

/-! ### Removing -/

/-- The name occurs in the text only `n` characters from its start, whatever the letter case. -/
def OnlyAt (p text : Str) (n : Nat) : Prop := ∀ a w b : Str, text = a ++ w ++ b → Same w p → a.length = n

theorem prefix_split (p s : Str) : (upper p).isPrefixOf (upper s) = true ↔ ∃ w b : Str, s = w ++ b ∧ Same w p := by
  rw [List.isPrefixOf_iff_prefix]
  constructor
  · rintro ⟨t, e⟩
    refine ⟨s.take p.length, s.drop p.length, (List.take_append_drop _ _).symm, ?_⟩
    have : (upper s).take p.length = upper p := by rw [← e]; simp [upper]
    unfold Same
    rw [← this]; simp [upper]
  · rintro ⟨w, b, rfl, h⟩
    exact ⟨upper b, by rw [← show upper w = upper p from h]; simp [upper]⟩

theorem subAll_pass (p : Str) (x y : Str) (h : ∀ a b : Str, x = a ++ b → b ≠ [] → (upper p).isPrefixOf (upper (b ++ y)) = false) :
    subAll p 0 (x ++ y) = x ++ subAll p 0 y := by
  induction x with
  | nil => rfl
  | cons c x ih =>
    have h0 := h [] (c :: x) rfl (by simp)
    rw [List.cons_append] at h0
    simp only [List.cons_append, subAll, h0, Bool.false_eq_true, if_false]
    rw [ih (fun a b e hb => h (c :: a) b (by rw [e]; rfl) hb)]

theorem subAll_skip (p : Str) (a b : Str) : subAll p a.length (a ++ b) = subAll p 0 b := by
  induction a with
  | nil => rfl
  | cons c a ih => simpa [subAll] using ih

theorem same_length {a b : Str} (h : Same a b) : a.length = b.length := by
  have := congrArg List.length (show upper a = upper b from h)
  simpa [upper] using this

theorem subAll_hit (p n sep v r : Str) (hn : Same n p) (hne : n ≠ []) (hs : Sep sep) (hv : Value v)
    (h3 : ∀ c ∈ r.head?, numChar c = false ∧ unitChar c = false) : subAll p 0 (n ++ (sep ++ (v ++ r))) = subAll p 0 r := by
  obtain ⟨c, n', e⟩ := List.exists_cons_of_ne_nil hne
  have hp := (prefix_split p (n ++ (sep ++ (v ++ r)))).2 ⟨n, _, rfl, hn⟩
  have hd : (n ++ (sep ++ (v ++ r))).drop p.length = sep ++ (v ++ r) := by
    rw [← same_length hn]; exact List.drop_left
  have hc : n ++ (sep ++ (v ++ r)) = c :: (n' ++ (sep ++ (v ++ r))) := by rw [e]; rfl
  rw [hc] at hp hd ⊢
  simp only [subAll, hp, if_true, hd, sepValue_ok sep v r hs hv h3]
  have e2 : p.length + sep.length + v.length - 1 = (n' ++ (sep ++ v)).length := by
    rw [← same_length hn, e]; simp; omega
  rw [e2, show n' ++ (sep ++ (v ++ r)) = (n' ++ (sep ++ v)) ++ r by simp, subAll_skip]

theorem subAll_line (p A gap n sep v R : Str) (hn : Same n p) (hne : n ≠ []) (hs : Sep sep) (hv : Value v)
    (h3 : ∀ c ∈ R.head?, numChar c = false ∧ unitChar c = false) (ho : OnlyAt p (A ++ gap ++ n ++ sep ++ v ++ R) (A ++ gap).length) :
    subAll p 0 (A ++ gap ++ n ++ sep ++ v ++ R) = A ++ gap ++ R := by
  have e : A ++ gap ++ n ++ sep ++ v ++ R = (A ++ gap) ++ (n ++ (sep ++ (v ++ R))) := by simp
  rw [e] at ho ⊢
  rw [subAll_pass p (A ++ gap), subAll_hit p n sep v R hn hne hs hv h3]
  · have : subAll p 0 (R ++ []) = R ++ subAll p 0 [] := by
      apply subAll_pass
      intro a b er hb
      by_contra hc
      obtain ⟨w, b', e1, e2⟩ := (prefix_split p (b ++ [])).1 (by simpa using hc)
      have := ho (A ++ gap ++ n ++ sep ++ v ++ a) w b' (by
        have : R = a ++ (w ++ b') := by rw [er]; congr 1; simpa using e1
        rw [this]; simp) e2
      have hl : n.length ≠ 0 := by simpa using hne
      simp only [List.length_append] at this; omega
    rw [List.append_nil] at this
    rw [this]; simp [subAll]
  · intro a b ea hb
    by_contra hc
    obtain ⟨w, b', e1, e2⟩ := (prefix_split p (b ++ (n ++ (sep ++ (v ++ R))))).1 (by simpa using hc)
    have := ho a w b' (by rw [ea]; rw [List.append_assoc, e1]; simp) e2
    have hl : b.length ≠ 0 := by simpa using hb
    have := congrArg List.length ea
    simp only [List.length_append] at *
    omega

/-- What is left of a line with the item removed: its blanks go to the next item, or to the rest of the line. -/
def dropItem (l : Line) (a b : List Item) (i : Item) : Line :=
  match b with
  | [] => ⟨l.kw, a, i.gap ++ l.tail⟩
  | j :: b' => ⟨l.kw, a ++ { j with gap := i.gap ++ j.gap } :: b', l.tail⟩

theorem dropItem_text (l : Line) (a b : List Item) (i : Item) : (dropItem l a b i).text = l.kw ++ a.flatMap Item.text ++ i.gap ++ (b.flatMap Item.text ++ l.tail) := by
  cases b <;> simp [dropItem, Line.text, Item.text]

theorem dropItem_pairs (l : Line) (a b : List Item) (i : Item) :
    (dropItem l a b i).items.map (fun k => (k.name, k.value)) = (a ++ b).map (fun k => (k.name, k.value)) := by
  cases b <;> simp [dropItem]

theorem blank_not_num (g : Str) (hb : Blank g) : ∀ c ∈ g, (¬ NumChar c ∧ c ≠ '{' ∧ c ≠ '"') ∧ (¬ NameChar c ∧ c ≠ '%') := by
  intro c hc
  have f := space_facts c (hb c hc)
  refine ⟨⟨?_, f.2.2.2.2.1, f.2.2.2.2.2⟩, ?_, ?_⟩
  · rw [← num_iff, f.2.1]; decide
  · rw [← word_iff, f.1]; decide
  · rintro rfl; have := f.2.2.1; revert this; decide

theorem dropItem_ok (l : Line) (a b : List Item) (i : Item) (hl : l.Ok) (e : l.items = a ++ i :: b)
    (hfirst : ∀ j, (a ++ b).head? = some j → ¬ NumberLike j.name) : (dropItem l a b i).Ok := by
  have hit := hl.items
  rw [e] at hit
  have hi := hit i (by simp)
  cases b with
  | nil =>
    refine ⟨hl.keyword, fun k hk => hit k (by simp [show k ∈ a from hk]), fun j hj => hfirst j (by rw [List.append_nil]; exact hj), ?_, ?_⟩
    · intro c hc
      rcases List.mem_append.1 hc with m | m
      · exact (blank_not_num _ hi.2.1 c m).1
      · exact hl.rest c m
    · intro c hc
      obtain ⟨x, g, eg⟩ := List.exists_cons_of_ne_nil hi.1
      have : c = x := by simp [dropItem, eg] at hc; exact hc.symm
      subst this
      exact (blank_not_num _ hi.2.1 c (by rw [eg]; simp)).2
  | cons j b =>
    have hj := hit j (by simp)
    refine ⟨hl.keyword, ?_, ?_, hl.rest, hl.stop⟩
    · intro k hk
      rcases List.mem_append.1 hk with m | m
      · exact hit k (by simp [m])
      · rcases List.mem_cons.1 m with rfl | m
        · refine ⟨by simp [hi.1], ?_, hj.2.2⟩
          intro c hc
          rcases List.mem_append.1 hc with q | q
          · exact hi.2.1 c q
          · exact hj.2.1 c q
        · exact hit k (by simp [m])
    · intro k hk
      cases a with
      | nil =>
        simp [dropItem] at hk
        subst hk
        exact hfirst j rfl
      | cons y a =>
        simp [dropItem] at hk
        subst hk
        exact hfirst y rfl

/-- What is left of the line: nothing but a comment when it was the only parameter. -/
def leftOver (ind : Str) (l' : Line) : SDir :=
  if l'.items = [] then .other (.text "* SpiceEditor removed empty .PARAM line\n".toList) else .params ind l'

theorem dropItem_head (l : Line) (a b : List Item) (i : Item) (hi : i.gap ≠ []) (ha : ∀ k ∈ a, k.Ok) (e : l.items = a ++ i :: b) :
    ((dropItem l a b i).items.flatMap Item.text ++ (dropItem l a b i).tail).head? = (l.items.flatMap Item.text ++ l.tail).head? := by
  obtain ⟨x, g, eg⟩ := List.exists_cons_of_ne_nil hi
  rw [e]
  cases a with
  | nil => cases b <;> simp [dropItem, Item.text, eg]
  | cons y a =>
    obtain ⟨z, g', eg'⟩ := List.exists_cons_of_ne_nil (ha y (by simp)).1
    cases b <;> simp [dropItem, Item.text, eg']

/-- set_parameter(name, None) of a parameter that is defined, when the name occurs nowhere else on its line and the parameter that
comes first then has no name like a number: exactly this definition is gone; a line without parameters becomes a comment. -/
theorem C62_remove (ed : Ed) (d : List SDir) (hd : ed.netlist = d.map SDir.elem) (h : ∀ x ∈ d, x.Ok) (hp : ed.perm ≠ .deny) (p x : Str)
    (hx : valueOf p d = some x)
    (honly : ∀ ind l a i b, .params ind l ∈ d → l.items = a ++ i :: b → Same i.name p →
      OnlyAt p (ind ++ l.text) (ind ++ l.kw ++ a.flatMap Item.text ++ i.gap).length ∧ ∀ j, (a ++ b).head? = some j → ¬ NumberLike j.name) :
    ∃ (ed' : Ed) (pre : List SDir) (ind : Str) (l l' : Line) (a b : List Item) (i : Item) (post : List SDir), delParam ed p = .ok ed' ∧
      d = pre ++ .params ind l :: post ∧ (∀ e ∈ pre, find p e.items = none) ∧ l.items = a ++ i :: b ∧ Same i.name p ∧ (∀ j ∈ a, ¬ Same j.name p) ∧
      l'.items.map (fun k => (k.name, k.value)) = (a ++ b).map (fun k => (k.name, k.value)) ∧ (leftOver ind l').Ok ∧
      ed'.netlist = (pre ++ leftOver ind l' :: post).map SDir.elem ∧
      ed'.calls = if ed.perm = .inform then ed.calls ++ [(p, "None".toList, .deleteParameter)] else ed.calls := by
  obtain ⟨_, h2⟩ := find_param p d h
  obtain ⟨pre, ind, l, post, m, e1, e2, e3, e4, _, e6⟩ := h2 x hx
  have hmem : SDir.params ind l ∈ d := by rw [e1]; simp
  have hl := h _ hmem
  obtain ⟨a, i, b, f1, f2, f3, f4⟩ := find_split p x l.items e3
  obtain ⟨g1, g2⟩ := honly ind l a i b hmem f1 f2
  have hok := hl.2.1
  have hit := hok.items
  rw [f1] at hit
  have hi := hit i (by simp)
  have hdo := dropItem_ok l a b i hok f1 g2
  have hdok : (SDir.params ind (dropItem l a b i)).Ok := by
    refine ⟨hl.1, hdo, ?_⟩
    rw [dropItem_head l a b i hi.1 (fun k hk => hit k (by simp [hk])) f1]
    exact hl.2.2
  have etext : ind ++ l.text = ind ++ l.kw ++ a.flatMap Item.text ++ i.gap ++ i.name ++ i.sep ++ i.value ++ (b.flatMap Item.text ++ l.tail) := by
    simp [Line.text, f1, Item.text]
  have hr : ∀ c ∈ (b.flatMap Item.text ++ l.tail).head?, numChar c = false ∧ unitChar c = false := by
    intro c hc
    have := rest_head b l.tail (fun k hk => hit k (by simp [hk])) hok.stop hok.rest c hc
    exact ⟨this.1, this.2.1⟩
  have hsub : subAll p 0 (ind ++ l.text) = ind ++ (dropItem l a b i).text := by
    rw [etext] at g1 ⊢
    rw [subAll_line p (ind ++ l.kw ++ a.flatMap Item.text) i.gap i.name i.sep i.value _ f2 hi.2.2.1.1 hi.2.2.2.1 hi.2.2.2.2 hr g1, dropItem_text]
    simp
  have hiter : findIter (ind ++ (dropItem l a b i).text) = [] ↔ (dropItem l a b i).items = [] := by
    rw [findIter_indented ind _ hdok]
    cases (dropItem l a b i).items <;> simp [spans]
  have helem : removeFrom p (SDir.params ind l).elem = (leftOver ind (dropItem l a b i)).elem := by
    simp only [SDir.elem, removeFrom, leftOver, hsub, hiter]
    split <;> rfl
  have hdel : delParam ed p = .ok (record { ed with netlist := ed.netlist.modify pre.length (removeFrom p) } p "None".toList .deleteParameter) := by
    rw [← hd] at e6
    unfold delParam
    rw [if_neg hp, e6]
  obtain ⟨r1, _, r3⟩ := record_facts ed (ed.netlist.modify pre.length (removeFrom p)) p "None".toList .deleteParameter
  refine ⟨_, pre, ind, l, dropItem l a b i, a, b, i, post, hdel, e1, e2, f1, f2, f4,
    dropItem_pairs l a b i, ?_, ?_, r3⟩
  · unfold leftOver
    split
    · exact Or.inr ⟨_, "*".toList, rfl, by decide, by decide⟩
    · exact hdok
  · rw [r1, hd, e1, List.map_append, List.map_cons, show pre.length = (pre.map SDir.elem).length by simp, modify_at, helem]
    simp

/-! ### Examples and limits -/

/-- A netlist with a line of three parameters, an element, and .backanno and .end. -/
def exDoc : List SDir := [.other (.text "* title\n".toList), .params " ".toList Props.ParamLine.exLine, .other (.comp (some "R1 a b {Rload}\n".toList)),
  .other (.prim ".backanno\n".toList), .other (.prim ".end\n".toList)]

def exEd : Ed := { perm := .inform, netlist := exDoc.map SDir.elem, calls := [] }

theorem exDoc_ok : ∀ x ∈ exDoc, x.Ok ∧ NamesOk x := by
  intro x hx
  simp only [exDoc, List.mem_cons, List.not_mem_nil, or_false] at hx
  rcases hx with rfl | rfl | rfl | rfl | rfl
  · exact ⟨Or.inr ⟨_, "*".toList, rfl, by decide, by decide⟩, Or.inr ⟨_, "*".toList, rfl, by decide, by decide⟩⟩
  · refine ⟨⟨by decide, Props.ParamLine.exLine_ok, ?_⟩, trivial⟩
    intro c hc
    have : c = ' ' := by
      have e : (Props.ParamLine.exLine.items.flatMap Item.text ++ Props.ParamLine.exLine.tail).head? = some ' ' := by decide +kernel
      rw [e] at hc; simpa using hc.symm
    exact Or.inl this
  · exact ⟨Or.inr ⟨_, "R".toList, rfl, by decide, by decide⟩, Or.inr ⟨_, "R".toList, rfl, by decide, by decide⟩⟩
  · exact ⟨Or.inr ⟨_, ".BACKANNO".toList, rfl, by decide, by decide⟩, Or.inr ⟨_, ".BACKANNO".toList, rfl, by decide, by decide⟩⟩
  · exact ⟨Or.inr ⟨_, ".END".toList, rfl, by decide, by decide⟩, Or.inr ⟨_, ".END".toList, rfl, by decide, by decide⟩⟩

def texts (r : Except Err Ed) : List String := match r with
  | .error _ => ["raises"]
  | .ok ed => ed.netlist.map (fun e => match e with | .prim s => String.ofList s | .text s => String.ofList s | .comp (some s) => String.ofList s | _ => "?")

example : texts (setParam exEd "GAIN".toList "7".toList) =
    ["* title\n", ".Param Rload = 4.7k  gain= 7 e1 1e-3 ; old\n", "R1 a b {Rload}\n", ".backanno\n", ".end\n"] := by decide +kernel
example : texts (setParam exEd "temp".toList "25".toList) =
    ["* title\n", " .Param Rload = 4.7k  gain={2*x + 1} e1 1e-3 ; old", "R1 a b {Rload}\n", ".PARAM temp=25  ; Batch instruction\n", ".backanno\n", ".end\n"] := by
  decide +kernel
example : texts (delParam exEd "gain".toList) =
    ["* title\n", " .Param Rload = 4.7k   e1 1e-3 ; old", "R1 a b {Rload}\n", ".backanno\n", ".end\n"] := by decide +kernel

def oneLine (s : String) : Ed := { perm := .inform, netlist := [.prim s.toList, .prim ".end\n".toList], calls := [] }

/-- Not true of the code: removing a parameter that is not there adds it, with the value None. -/
theorem C62_remove_missing_witness : texts (delParam (oneLine ".param a=1\n") "b".toList) = [".PARAM b=None  ; Batch instruction\n", ".param a=1\n", ".end\n"] := by
  decide +kernel

/-- Not true of the code: removing "B" also cuts the end off the definition of "AB". -/
theorem C62_remove_suffix_witness : texts (delParam (oneLine ".param AB=1 B=2 C=3\n") "B".toList) = [".param A  C=3\n", ".end\n"] := by decide +kernel

/-- Not true of the code: removing "k" takes the end of the value 5k for the name, and the start of the next name for its value. -/
theorem C62_remove_unit_witness : texts (delParam (oneLine ".param k=1 a=5k e2=3\n") "k".toList) = [".param  a=5=3\n", ".end\n"] := by decide +kernel

/-- Not true of the code: removing the first parameter can make the next one unreadable. -/
theorem C62_remove_first_witness :
    (match delParam (oneLine ".param a=1 e1=3\n") "a".toList with | .ok ed => getParam ed "e1".toList | .error e => .error e) = .ok none ∧
    getParam (oneLine ".param a=1 e1=3\n") "e1".toList = .ok (some "3".toList) := ⟨rfl, rfl⟩

/-- Not true of the code: an empty value leaves the value as it was, and the line gets one more line end, which the text of the netlist
shows as an empty line. -/
theorem C62_empty_value_witness : texts (setParam (oneLine ".param a=1\n") "a".toList []) = [".param a=1\n\n", ".end\n"] := by decide +kernel

/-- Not true of the code: with a control section that holds no text, asking for all names raises; asking for a parameter does not. -/
theorem C62_names_control_witness : Model.SpiceParam.allNames { perm := .inform, netlist := [.prim ".param a=1\n".toList, .ctrl none], calls := [] } = .error .syntaxErr ∧
    getParam { perm := .inform, netlist := [.prim ".param a=1\n".toList, .ctrl none], calls := [] } "a".toList = .ok (some "1".toList) := ⟨rfl, rfl⟩

end Props.SpiceParam
