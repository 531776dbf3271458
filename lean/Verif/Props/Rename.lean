import Verif.Model.Rename
import Verif.Spec.Rename
import Verif.Props.SubFind
import Verif.Props.SpiceParam
import Verif.Props.Asy
import Verif.Lemmas.CompWrite
/-
C86: the private copy of a sub-circuit definition keeps the definition under a new name, and the instance gets that name.
-/
namespace Props.Rename
open Model.Rename
open Model.PyStr (isSpace strip rstrip lstrip)
open Model.NetTree (Item)
open Model.CompLine (WordClass)
open Model.Netlist (lineCommand)
open Model.Regex (exec)
open Model.SubFind (headRe itemText nameOf)
open Spec.Rename

variable (w : WordClass)

/-- What the expression for .SUBCKT lines finds: the position and text of the name. -/
theorem head_match (kw blanks name rest : Str) (hk : Spec.SubFind.Same kw "SUBCKT".toList) (hb : blanks ≠ [])
    (hs : ∀ x ∈ blanks, isSpace x = true) (hn0 : name ≠ []) (hn : ∀ x ∈ name, w.word x = true ∨ x = '.')
    (hr : ∀ x, rest.head? = some x → w.word x = false ∧ x ≠ '.') :
    (exec (headRe w) ('.' :: (kw ++ blanks ++ name ++ rest))).bind (fun m => m.get .designator) = some (1 + kw.length + blanks.length, name) := by
  have hw : ∀ x ∈ name, isSpace x = false := by
    intro x hx
    rcases hn x hx with h | rfl
    · exact (w.not x h).1
    · rfl
  have run := Props.SubFind.head_run w kw blanks name rest hk hb hs hn0 hn hr
  rw [run, Option.bind_some]
  unfold Model.Regex.St.get
  rw [Lemmas.Regex.close_text .designator (a := name) ⟨rfl, rfl⟩]
  simp [Lemmas.Regex.adv, Model.Regex.St.next]

/-- A name that may stand in a .SUBCKT line for the expression of the code. -/
def NameOk (name : Str) : Prop := name ≠ [] ∧ ∀ x ∈ name, w.word x = true ∨ x = '.'

variable {w}

theorem name_visible {name : Str} (h : NameOk w name) : ∀ x ∈ name, isSpace x = false := by
  intro x hx
  rcases h.2 x hx with h | rfl
  · exact (w.not x h).1
  · rfl

theorem space_not_word {x : Char} (h : isSpace x = true) : w.word x = false ∧ x ≠ '.' := by
  refine ⟨?_, ?_⟩
  · cases hx : w.word x with
    | false => rfl
    | true => rw [(w.not x hx).1] at h; cases h
  · rintro rfl; exact absurd h (by decide)

theorem head_get {line kw name rest : Str} (h : Head line kw name rest) (hn : NameOk w name) :
    ∃ n, (exec (headRe w) line).bind (fun m => m.get .designator) = some (n, name) ∧ line.take n ++ name ++ rest = line ∧ line.drop (n + name.length) = rest ∧ line ≠ [] ∧
      ∃ blanks, line.take n = '.' :: (kw ++ blanks) ∧ blanks ≠ [] ∧ ∀ x ∈ blanks, isSpace x = true := by
  obtain ⟨blanks, rfl, hb, hs⟩ := h.parts
  have e : '.' :: (kw ++ blanks ++ name ++ rest) = ('.' :: (kw ++ blanks)) ++ (name ++ rest) := by simp
  have hl : 1 + kw.length + blanks.length = ('.' :: (kw ++ blanks)).length := by simp; omega
  refine ⟨1 + kw.length + blanks.length, head_match w kw blanks name rest h.keyword hb hs hn.1 hn.2 (fun x hx => space_not_word (h.follows x hx)), ?_, ?_, by simp, blanks, ?_, hb, hs⟩
  · rw [hl, e, List.take_left]; simp
  · rw [hl, e, ← List.drop_drop, List.drop_left, List.drop_left]
  · rw [hl, e, List.take_left]

theorem words_end (b : Str) : words (rstrip b ++ ['\n']) = words b := by
  obtain ⟨s, h, hs⟩ := Props.SpiceParam.rstrip_prefix b
  have key : ∀ (a t : Str), (∀ c ∈ t, isSpace c = true) → Model.Asc.words (a ++ t) = Model.Asc.words a := by
    intro a t ht
    cases t with
    | nil => rw [List.append_nil]
    | cons c t =>
      unfold Model.Asc.words
      rw [Lemmas.Asc.wordsAux_blank a t [] c (ht c (by simp))]
      have := Props.Asy.words_blanks t (fun x hx => ht x (by simp [hx])) []
      rw [List.append_nil] at this
      unfold Model.Asc.words at this
      rw [this]
      simp [Model.Asc.wordsAux]
  show Model.Asc.words (rstrip b ++ ['\n']) = Model.Asc.words b
  rw [key _ _ (by intro c hc; simp at hc; subst hc; decide)]
  conv_rhs => rw [h]
  rw [key _ _ hs]

/-- The new .SUBCKT line. -/
theorem new_head {line kw name rest new : Str} (h : Head line kw name rest) (hn : NameOk w name) (hw : NameOk w new) (n : Nat)
    (hg : (exec (headRe w) line).bind (fun m => m.get .designator) = some (n, name)) :
    ∃ rest', Head (Model.SpiceParam.insertSection line n (n + name.length) new ++ ['\n']) kw new rest' ∧ words rest' = words rest ∧ rest'.getLast? = some '\n' := by
  obtain ⟨n', h1, h2, h3, h4, blanks, h5, h6, h7⟩ := head_get h hn
  rw [hg] at h1
  injection h1 with h1
  injection h1 with h1 _
  subst h1
  have hvis := name_visible hw
  have hstrip : strip new = new := Lemmas.FloatUnit.strip_visible (fun c hc => hvis c (List.mem_of_mem_head? hc)) (fun c hc => hvis c (List.mem_of_mem_getLast? hc))
  obtain ⟨front, hfront, hfs⟩ : ∃ front : Str, (if 0 < n ∧ line[n - 1]? ≠ some ' ' then ' ' :: new else new) = front ++ new ∧ ∀ x ∈ front, isSpace x = true := by
    split_ifs
    · exact ⟨[' '], rfl, by intro x hx; simp at hx; subst hx; decide⟩
    · exact ⟨[], rfl, by simp⟩
  obtain ⟨back, hback, hbs⟩ : ∃ back : Str, (if n + name.length < line.length ∧ line[n + name.length]? ≠ some ' ' ∧ 1 < (front ++ new).length then (front ++ new) ++ [' '] else front ++ new) = front ++ new ++ back ∧
      (back = [] ∨ back = [' ']) := by
    split_ifs
    · exact ⟨[' '], rfl, Or.inr rfl⟩
    · exact ⟨[], by simp, Or.inl rfl⟩
  have hins : Model.SpiceParam.insertSection line n (n + name.length) new = '.' :: (kw ++ (blanks ++ front) ++ new) ++ rstrip (back ++ rest) := by
    unfold Model.SpiceParam.insertSection
    rw [if_neg h4, if_neg hw.1]
    simp only [hstrip]
    rw [hfront]
    rw [hback, h3, h5]
    have e : '.' :: (kw ++ blanks) ++ (front ++ new ++ back) ++ rest = ('.' :: (kw ++ (blanks ++ front) ++ new)) ++ (back ++ rest) := by simp
    rw [e]
    unfold strip
    have el : lstrip ('.' :: (kw ++ (blanks ++ front) ++ new) ++ (back ++ rest)) = '.' :: (kw ++ (blanks ++ front) ++ new) ++ (back ++ rest) := by
      unfold lstrip
      rw [List.cons_append, List.dropWhile_cons_of_neg (by decide)]
    rw [el]
    refine Lemmas.CompLine.rstrip_last _ ?_ (by simp) _
    intro c hc
    obtain ⟨a, x, rfl⟩ : ∃ a x, new = a ++ [x] := ⟨new.dropLast, new.getLast hw.1, (List.dropLast_append_getLast hw.1).symm⟩
    rw [show '.' :: (kw ++ (blanks ++ front) ++ (a ++ [x])) = '.' :: (kw ++ (blanks ++ front) ++ a) ++ [x] by simp, List.getLast?_append] at hc
    simp at hc
    subst hc
    exact hvis _ (by simp)
  refine ⟨rstrip (back ++ rest) ++ ['\n'], ⟨⟨blanks ++ front, ?_, by simp [h6], ?_⟩, h.keyword, ?_⟩, ?_, by simp⟩
  · rw [hins]; simp
  · intro x hx
    rcases List.mem_append.mp hx with hx | hx
    · exact h7 x hx
    · exact hfs x hx
  · intro x hx
    cases hb : rstrip (back ++ rest) with
    | nil => rw [hb] at hx; simp at hx; subst hx; decide
    | cons y ys =>
      rw [hb] at hx
      simp at hx
      subst hx
      obtain ⟨s, hs, _⟩ := Props.SpiceParam.rstrip_prefix (back ++ rest)
      rw [hb] at hs
      rcases hbs with rfl | rfl
      · exact h.follows y (by rw [show rest = y :: (ys ++ s) by simpa using hs]; rfl)
      · have : y = ' ' := by simp at hs; exact hs.1.symm
        rw [this]; decide
  · rw [words_end]
    rcases hbs with rfl | rfl
    · rfl
    · exact Props.Asy.words_blanks [' '] (by intro x hx; simp at hx; subst hx; decide) rest

/-! ### The elements -/

/-- A string that is no .SUBCKT line. -/
def NoHead (w : WordClass) (i : Item) : Prop := (∀ l, i ≠ .sub l) ∧ (exec (headRe w) (itemText i)).bind (fun m => m.get .designator) = none

/-- An element that the search for .ENDS passes: a string, a nested sub-circuit, or a line with another command. -/
def NoEnds (i : Item) : Prop := primText i = none ∨ ∃ s cmd, primText i = some s ∧ lineCommand s = some cmd ∧ cmd ≠ ".ENDS".toList

theorem renameHead_eq {new : Str} (pre : List Item) (i : Item) (is : List Item) (hp : ∀ x ∈ pre, NoHead w x) (hi : ∀ l, i ≠ .sub l) {n : Nat} {name : Str}
    (hg : (exec (headRe w) (itemText i)).bind (fun m => m.get .designator) = some (n, name)) :
    renameHead w new (pre ++ i :: is) = .ok (pre ++ [.text (Model.SpiceParam.insertSection (itemText i) n (n + name.length) new ++ ['\n'])], is) := by
  induction pre with
  | nil =>
    rw [List.nil_append]
    unfold renameHead
    split
    · rename_i h; cases h
    · rename_i h; injection h with h _; exact absurd h (hi _)
    · rename_i h; injection h with h1 h2; subst h1 h2; rw [hg]; rfl
  | cons x pre ih =>
    have hx := hp x (by simp)
    have ih' := ih (fun y hy => hp y (by simp [hy]))
    rw [List.cons_append]
    unfold renameHead
    split
    · rename_i h; cases h
    · rename_i h; injection h with h _; exact absurd h (hx.1 _)
    · rename_i h; injection h with h1 h2; subst h1 h2; rw [hx.2]; dsimp only; rw [ih']; rfl

theorem renameEnds_eq {new : Str} (mid : List Item) (e : Str) (post : List Item) (hm : ∀ x ∈ mid, NoEnds x) (he : lineCommand e = some ".ENDS".toList) :
    renameEnds new (mid ++ .prim e :: post) = .ok (mid ++ .prim (".ENDS ".toList ++ new ++ ['\n']) :: post) := by
  induction mid with
  | nil =>
    rw [List.nil_append, renameEnds]
    show (match lineCommand e with | none => _ | some cmd => _) = _
    rw [he]
    dsimp only
    rw [if_pos rfl]
    rfl
  | cons x mid ih =>
    have ih' := ih (fun y hy => hm y (by simp [hy]))
    rw [List.cons_append, renameEnds]
    rcases hm x (by simp) with h | ⟨s, cmd, h1, h2, h3⟩
    · rw [h]; dsimp only; rw [ih']; rfl
    · rw [h1]; dsimp only; rw [h2]; dsimp only; rw [if_neg h3, ih']; rfl

/-- C86: renaming a definition changes its name in the .SUBCKT line and its .ENDS line and nothing else: the keyword and all words after the name (ports and
parameters) stay, and so does every other element. Its name is the new name afterwards. -/
theorem C86_rename (w : WordClass) (pre mid post : List Item) (line kw name rest e new : Str) (h : Head line kw name rest) (hn : NameOk w name) (hw : NameOk w new)
    (hp : ∀ x ∈ pre, NoHead w x) (hm : ∀ x ∈ mid, NoEnds x) (he : lineCommand e = some ".ENDS".toList) :
    ∃ line' rest', setname w new (pre ++ .prim line :: (mid ++ .prim e :: post)) = .ok (pre ++ .text line' :: (mid ++ .prim (".ENDS ".toList ++ new ++ "\n".toList) :: post)) ∧
      Head line' kw new rest' ∧ words rest' = words rest ∧
      nameOf w (pre ++ .text line' :: (mid ++ .prim (".ENDS ".toList ++ new ++ "\n".toList) :: post)) = some new := by
  obtain ⟨n, h1, _⟩ := head_get h hn
  obtain ⟨rest', k1, k2, k3⟩ := new_head h hn hw n h1
  refine ⟨_, rest', ?_, k1, k2, ?_⟩
  · unfold setname
    rw [if_neg (by cases pre <;> simp), renameHead_eq pre (.prim line) _ hp (by simp) h1]
    dsimp only
    rw [renameEnds_eq mid e post hm he]
    simp [itemText]
  · obtain ⟨n', h2, _⟩ := head_get k1 hw
    have : ∀ (pre : List Item), (∀ x ∈ pre, NoHead w x) → ∀ i is, (exec (headRe w) (itemText i)).bind (fun m => m.get .designator) = some (n', new) → nameOf w (pre ++ i :: is) = some new := by
      intro pre
      induction pre with
      | nil => intro _ i is hi; rw [List.nil_append, nameOf, hi]
      | cons x pre ih =>
        intro hx i is hi
        rw [List.cons_append, nameOf, (hx x (by simp)).2]
        exact ih (fun y hy => hx y (by simp [hy])) i is hi
    exact this pre hp _ _ h2

/-! ### The copy -/

theorem opening_ok : NoHead w opening := by
  refine ⟨fun l h => (by cases h), ?_⟩
  have : exec (headRe w) (itemText opening) = none := by
    unfold exec headRe Model.SubFind.clauseRe
    rw [Props.LogFile.go_seq]
    rfl
  rw [this]; rfl

theorem cloneItems_append (a b : List Item) : cloneItems (a ++ b) = cloneItems a ++ cloneItems b := by
  induction a with
  | nil => rfl
  | cons x a ih => rw [List.cons_append, cloneItems, cloneItems, ih]; rfl

theorem cloneItems_map (a : List Item) : cloneItems a = a.map cloneItem := by
  induction a with
  | nil => rfl
  | cons x a ih => rw [cloneItems, ih]; rfl

theorem clone_noEnds {i : Item} (h : NoEnds i) : NoEnds (cloneItem i) := by
  cases i with
  | text s => exact Or.inl rfl
  | sub l => exact Or.inl rfl
  | prim s => exact h
  | comp s => exact h
  | ctrl s => rcases h with h | h; · cases h
              exact Or.inr h
  | incl s => rcases h with h | h; · cases h
              exact Or.inr h

/-- C86: the first time something inside an instance is changed, the instance gets a copy of the definition it had: between two comment lines the
same elements (nested definitions copied likewise) under the name value_reference, and exactly this name becomes the value of the instance. -/
theorem C86_copy (w : WordClass) (mid : List Item) (line kw name rest e fallback value ref : Str) (h : Head line kw name rest) (hn : NameOk w name) (hv : NameOk w value)
    (hr : ∀ x ∈ ref, w.word x = true ∨ x = '.') (hm : ∀ x ∈ mid, NoEnds x) (he : lineCommand e = some ".ENDS".toList) :
    ∃ line' rest', firstUpdate w fallback value ref (.prim line :: (mid ++ [.prim e])) =
        .ok (opening :: .text line' :: (mid.map cloneItem ++ [.prim (".ENDS ".toList ++ (value ++ "_".toList ++ ref) ++ "\n".toList), closing]), value ++ "_".toList ++ ref) ∧
      Head line' kw (value ++ "_".toList ++ ref) rest' ∧ words rest' = words rest := by
  have hnew : NameOk w (value ++ "_".toList ++ ref) := by
    refine ⟨by simp, ?_⟩
    intro x hx
    simp only [List.mem_append] at hx
    rcases hx with (hx | hx) | hx
    · exact hv.2 x hx
    · left; have : x = '_' := by simpa using hx
      subst this; exact w.ascii '_' (Or.inr rfl)
    · exact hr x hx
  obtain ⟨line', rest', h1, h2, h3, h4⟩ := C86_rename w [opening] (mid.map cloneItem) [closing] line kw name rest e (value ++ "_".toList ++ ref) h hn hnew
    (by intro x hx; simp at hx; subst hx; exact opening_ok) (by
      intro x hx
      obtain ⟨y, hy, rfl⟩ := List.mem_map.mp hx
      exact clone_noEnds (hm y hy)) he
  refine ⟨line', rest', ?_, h2, h3⟩
  have hc : clone w (copyName value ref) (.prim line :: (mid ++ [.prim e])) =
      .ok (opening :: .text line' :: (mid.map cloneItem ++ [.prim (".ENDS ".toList ++ (value ++ "_".toList ++ ref) ++ "\n".toList), closing])) := by
    unfold clone
    rw [cloneItems, cloneItems_append, cloneItems_map mid]
    rw [show opening :: (cloneItem (.prim line) :: (mid.map cloneItem ++ cloneItems [.prim e])) ++ [closing] = [opening] ++ .prim line :: (mid.map cloneItem ++ .prim e :: [closing]) by
      simp [cloneItem, cloneItems]]
    exact h1
  unfold firstUpdate
  rw [hc]
  have h5 : nameOf w (opening :: .text line' :: (mid.map cloneItem ++ [.prim (".ENDS ".toList ++ (value ++ "_".toList ++ ref) ++ "\n".toList), closing])) = some (value ++ "_".toList ++ ref) := h4
  dsimp only
  rw [h5]
  rfl

/-- C86: copies for instances of the same definition have different names. -/
theorem C86_copies_apart (value ref ref' : Str) : copyName value ref = copyName value ref' ↔ ref = ref' := by
  unfold copyName
  constructor
  · intro h; exact List.append_cancel_left h
  · rintro rfl; rfl

/-! ### A definition -/

def sampleItems : List Item :=
  [.prim ".subckt\tOPA.x in out vcc params: g=1\n".toList, .comp "R1 in out 1k\n".toList, .text "* note\n".toList,
   .sub [.prim ".subckt inner a\n".toList, .prim ".ends\n".toList], .prim ".ends OPA.x\n".toList]

mutual
/-- An element as text, for comparison. -/
def shown : Item → Str
  | .text s => 't' :: s | .prim s => 'p' :: s | .comp s => 'c' :: s | .ctrl s => 'k' :: s | .incl s => 'i' :: s
  | .sub l => 's' :: shownL l
def shownL : List Item → Str
  | [] => []
  | i :: is => shown i ++ shownL is
end

def result (x : Except Err (List Item × Str)) : Option (Str × Str) := x.toOption.map (fun r => (shownL r.1, r.2))

/-- C86: a definition and the copy made for the instance X1. -/
theorem C86_sample : result (firstUpdate Props.CompLine.ascii "Netlist".toList "OPA.x".toList "X1".toList sampleItems) =
    some ("t***** SpiceEditor Manipulated this sub-circuit ****\nt.subckt\t OPA.x_X1 in out vcc params: g=1\ncR1 in out 1k\nt* note\n".toList ++
      "st***** SpiceEditor Manipulated this sub-circuit ****\np.subckt inner a\np.ends\nt***** ENDS SpiceEditor ****\n".toList ++
      "p.ENDS OPA.x_X1\nt***** ENDS SpiceEditor ****\n".toList, "OPA.x_X1".toList) := by
  decide +kernel

/-- C86, limits. A definition whose name has another character (here LM741-N, found in a library) gets a copy that has the rest of the old name as an additional port, and the
instance is given a name that no definition has; a definition closed by .END only cannot be copied; two instances whose values differ may get copies of the same name. -/
theorem C86_limits :
    result (firstUpdate Props.CompLine.ascii "Netlist".toList "LM741-N".toList "X1".toList [.prim ".SUBCKT LM741-N in out\n".toList, .prim ".ENDS\n".toList]) =
      some ("t***** SpiceEditor Manipulated this sub-circuit ****\nt.SUBCKT LM741-N_X1 -N in out\np.ENDS LM741-N_X1\nt***** ENDS SpiceEditor ****\n".toList, "LM741".toList) ∧
    result (firstUpdate Props.CompLine.ascii "Netlist".toList "A".toList "X1".toList [.prim ".SUBCKT A in out\n".toList, .prim ".END\n".toList]) = none ∧
    copyName "A".toList "X1_X2".toList = copyName "A_X1".toList "X2".toList := by
  refine ⟨?_, ?_, ?_⟩ <;> decide +kernel

end Props.Rename
