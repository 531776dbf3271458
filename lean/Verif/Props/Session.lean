import Verif.Spec.Session
import Verif.Props.EditSave
import Verif.Props.Netlist
/-
C105: whole editing sessions on a netlist (spice_subcircuit.py, spice_file.py).
-/
namespace Props.Session
open Model.PyStr Spec.Session Spec.EditSave Spec.NetBlocks
open Model.CompLine (WordClass reset rewrite Attrs)
open Props.Params (NameOk)
open Model.Session hiding Str
open Model.EditSave (El asElem toEl openText save getValue getParameter)
open Model.NetTree (kind Kind)
open Model.Netlist (lineCommand isUnique findUnique findText findBackanno uniqueCommands validPrefixes upChar endsWord classFor withNewline)
open Lemmas.Netlist
open Props.EditSave hiding Str
open Model.Params (PV)
open Model.Netlist (Str)

/-! ### Commands -/

theorem prefix_visible : ∀ c ∈ validPrefixes, isSpace c = false := by decide +kernel

theorem upChar_visible (c : Char) (h : upChar c ∈ validPrefixes) : isSpace c = false := by
  by_cases hc : c.toNat < 128
  · rw [upChar_small c hc] at h
    revert h
    exact Lemmas.PyStr.ascii_ind (P := fun c => c.toUpper ∈ validPrefixes → isSpace c = false) (by decide +kernel) c hc
  · unfold upChar at h
    split_ifs at h with h1 h2 h3
    · subst h1; decide
    · subst h2; decide
    · subst h3; decide
    · rw [Lemmas.PyStr.toUpper_big c (by omega)] at h
      exact prefix_visible c h

/-- upChar keeps white space. -/
theorem upChar_space (c : Char) (h : isSpace c = true) : upChar c = c := by
  by_cases hc : c.toNat < 128
  · rw [upChar_small c hc]
    revert h
    exact Lemmas.PyStr.ascii_ind (P := fun c => isSpace c = true → c.toUpper = c) (by decide +kernel) c hc
  · unfold upChar
    split_ifs with h1 h2 h3
    · subst h1; exact absurd h (by decide)
    · subst h2; exact absurd h (by decide)
    · subst h3; exact absurd h (by decide)
    · exact Lemmas.PyStr.toUpper_big c (by omega)

theorem rstrip_keep (u v : Str) (h : ∀ c, u.getLast? = some c → isSpace c = false) : ∃ q, rstrip (u ++ v) = u ++ q ∧ q <+: v := by
  unfold rstrip
  rw [List.reverse_append]
  by_cases hv : ∀ c ∈ v, isSpace c = true
  · rw [Lemmas.PyStr.dropWhile_all _ _ _ (by simpa using hv)]
    refine ⟨[], ?_, List.nil_prefix⟩
    cases hu : u.reverse with
    | nil => simp [List.reverse_eq_nil_iff.1 hu]
    | cons c t =>
      rw [Lemmas.PyStr.dropWhile_head, ← hu]
      · simp
      · exact h c (by rw [List.getLast?_eq_head?_reverse, hu]; rfl)
  · push Not at hv
    have key : ∀ (a b : Str), (∃ c ∈ a, isSpace c ≠ true) → (a ++ b).dropWhile isSpace = a.dropWhile isSpace ++ b := by
      intro a b
      induction a with
      | nil => rintro ⟨c, hc, _⟩; simp at hc
      | cons x a ih =>
        intro hx
        by_cases hs : isSpace x = true
        · simp only [List.cons_append, List.dropWhile_cons, hs, if_true]
          apply ih
          obtain ⟨c, hc, hcs⟩ := hx
          rcases List.mem_cons.1 hc with rfl | hc
          · exact absurd hs hcs
          · exact ⟨c, hc, hcs⟩
        · simp [List.dropWhile_cons, hs]
    rw [key _ _ (by obtain ⟨c, hc, hs⟩ := hv; exact ⟨c, by simpa using hc, hs⟩)]
    refine ⟨(v.reverse.dropWhile isSpace).reverse, by simp, ?_⟩
    have := List.dropWhile_suffix isSpace (l := v.reverse)
    have := List.reverse_prefix.2 this
    simpa using this

/-- Stripping a line and ending it again does not change its command. -/
theorem command_strip (s cmd : Str) (h : lineCommand s = some cmd) (hv : ∀ c ∈ cmd, isSpace c = false) (hs : cmd ≠ ['*']) : lineCommand (strip s ++ ['\n']) = some cmd := by
  have blanks : ∀ (b t : Str), (∀ x ∈ b, x = ' ' ∨ x = '\t') → strip (b ++ t) = strip t := by
    intro b t hb
    unfold strip lstrip
    rw [Lemmas.PyStr.dropWhile_all]
    intro c hc
    rcases hb c hc with rfl | rfl <;> decide
  rcases lineCommand_cases s cmd h with ⟨b, u, r, rfl, hb, hu, hr, rfl⟩ | ⟨_, _, b, x, r, rfl, hb, hx, hc⟩
  · rw [blanks _ _ hb]
    have h1 : strip ('.' :: (u ++ r)) = rstrip (('.' :: u) ++ r) := by
      unfold strip lstrip
      rw [Lemmas.PyStr.dropWhile_head _ _ _ (by decide)]
      rfl
    obtain ⟨q, hq, hp⟩ := rstrip_keep ('.' :: u) r (by
      intro c hc
      have hm : c ∈ '.' :: u := List.mem_of_getLast? hc
      cases hsp : isSpace c with
      | false => rfl
      | true =>
        have := hv (upChar c) (List.mem_map_of_mem hm)
        rw [upChar_space c hsp, hsp] at this
        exact this)
    rw [h1, hq]
    have := lineCommand_directive [] u (q ++ ['\n']) (by simp) hu (by
      cases q with
      | nil => exact .inr ⟨'\n', [], rfl, by decide⟩
      | cons y q =>
        rcases hr with rfl | ⟨x, r', rfl, hx⟩
        · simp at hp
        · have : y = x := (List.cons_prefix_cons.1 hp).1
          subst this
          exact .inr ⟨y, q ++ ['\n'], rfl, hx⟩)
    simpa using this
  · rw [blanks _ _ hb]
    have hsp : isSpace x = false := by
      rcases hc with ⟨_, hx'⟩ | ⟨_, rfl⟩ | ⟨hc, _⟩
      · exact upChar_visible x hx'
      · decide
      · exact absurd hc hs
    have h1 : strip (x :: r) = rstrip ([x] ++ r) := by
      unfold strip lstrip
      rw [Lemmas.PyStr.dropWhile_head _ _ _ hsp]
      rfl
    obtain ⟨q, hq, _⟩ := rstrip_keep [x] r (by intro c hc; simp only [List.getLast?_singleton, Option.some.injEq] at hc; rw [← hc]; exact hsp)
    rw [h1, hq]
    rcases hc with ⟨rfl, hx'⟩ | ⟨rfl, rfl⟩ | ⟨hc, _⟩
    · simp only [List.singleton_append, List.cons_append, lineCommand, hx, Bool.false_eq_true, if_false, hx', if_true]
    · simp only [List.singleton_append, List.cons_append, lineCommand]; rfl
    · exact absurd hc hs

/-- The command of a text is that of its first line. -/
theorem command_first (a rest : Str) : lineCommand (a ++ '\n' :: rest) = lineCommand (a ++ ['\n']) := by
  induction a with
  | nil => rfl
  | cons c a ih =>
    simp only [List.cons_append, lineCommand]
    rw [ih]
    have : ∀ a : Str, (a ++ '\n' :: rest).takeWhile (fun d => !endsWord d) = (a ++ ['\n']).takeWhile (fun d => !endsWord d) := by
      intro a
      induction a with
      | nil => rfl
      | cons x a ih => simp only [List.cons_append, List.takeWhile_cons, ih]
    rw [this]

theorem lower_letter (c l : Char) (h : c.toLower = l) (hl : l ∈ "backno.".toList) : upChar c = l.toUpper ∧ endsWord c = false := by
  by_cases hc : c.toNat < 128
  · rw [upChar_small c hc]
    subst h
    revert hl
    exact Lemmas.PyStr.ascii_ind (P := fun c => c.toLower ∈ "backno.".toList → c.toUpper = c.toLower.toUpper ∧ endsWord c = false) (by decide +kernel) c hc
  · exfalso
    rw [Lemmas.PyStr.toLower_big c (by omega)] at h
    subst h
    have : ∀ x ∈ "backno.".toList, x.toNat < 128 := by decide
    exact hc (this c hl)

theorem backanno_command (s : Str) (h : ".backanno".toList.isPrefixOf (lower s) = true) : ∃ cmd, lineCommand s = some cmd ∧ kind cmd = .other ∧ cmd ≠ ".PARAM".toList := by
  rw [List.isPrefixOf_iff_prefix] at h
  obtain ⟨t, ht⟩ := h
  obtain ⟨a, b, rfl, h1, h2⟩ : ∃ a b, s = a ++ b ∧ lower a = ".backanno".toList ∧ lower b = t := by
    obtain ⟨a, b, e1, e2, e3⟩ := List.map_eq_append_iff.1 ht.symm
    exact ⟨a, b, e1, e2, e3⟩
  clear ht
  have ha : a.map upChar = ".BACKANNO".toList ∧ ∀ c ∈ a, endsWord c = false := by
    have gen : ∀ (a l : Str), lower a = l → (∀ x ∈ l, x ∈ "backno.".toList) → a.map upChar = l.map Char.toUpper ∧ ∀ c ∈ a, endsWord c = false := by
      intro a
      induction a with
      | nil => intro l h _; subst h; exact ⟨rfl, by simp⟩
      | cons c a ih =>
        intro l h hl
        subst h
        obtain ⟨g1, g2⟩ := ih (lower a) rfl (fun x hx => hl x (by simp only [lower, List.map_cons, List.mem_cons]; exact .inr hx))
        obtain ⟨k1, k2⟩ := lower_letter c c.toLower rfl (hl _ (by simp [lower]))
        refine ⟨?_, ?_⟩
        · rw [List.map_cons, k1, g1]; rfl
        · intro x hx
          rcases List.mem_cons.1 hx with rfl | hx
          · exact k2
          · exact g2 x hx
    obtain ⟨g1, g2⟩ := gen a _ h1 (by decide)
    exact ⟨g1.trans (by decide), g2⟩
  obtain ⟨c, a', rfl⟩ : ∃ c a', a = c :: a' := by
    cases a with
    | nil => exact absurd ha.1 (by decide)
    | cons c a' => exact ⟨c, a', rfl⟩
  have hc : c = '.' := by
    apply upChar_dot
    have := ha.1
    simp only [List.map_cons] at this
    exact (List.cons_eq_cons.1 this).1
  subst hc
  have hmap : a'.map upChar = "BACKANNO".toList := by
    have := ha.1
    simp only [List.map_cons] at this
    exact (List.cons_eq_cons.1 this).2
  have e : lineCommand ('.' :: a' ++ b) = some (('.' :: (a' ++ b).takeWhile (fun d => !endsWord d)).map upChar) := lineCommand_dot (a' ++ b)
  have tw : (a' ++ b).takeWhile (fun d => !endsWord d) = a' ++ b.takeWhile (fun d => !endsWord d) := by
    rw [List.takeWhile_append_of_pos]
    intro x hx
    rw [ha.2 x (by simp [hx])]; rfl
  have hd : upChar '.' = '.' := by decide
  rw [tw, List.map_cons, List.map_append, hmap, hd] at e
  refine ⟨_, e, ?_, ?_⟩
  · generalize (b.takeWhile (fun d => !endsWord d)).map upChar = z
    show kind ('.' :: 'B' :: 'A' :: 'C' :: 'K' :: 'A' :: 'N' :: 'N' :: 'O' :: z) = .other
    unfold kind
    simp [List.isPrefixOf]
  · generalize (b.takeWhile (fun d => !endsWord d)).map upChar = z
    show ('.' :: 'B' :: 'A' :: 'C' :: 'K' :: 'A' :: 'N' :: 'N' :: 'O' :: z) ≠ _
    simp

/-! ### Directives -/

theorem strip_visible (s : Str) (y : Char) (x : Str) (h : strip s = y :: x) : isSpace y = false := by
  unfold strip at h
  have h1 : rstrip (lstrip s) <+: lstrip s := by
    unfold rstrip
    have := List.reverse_prefix.2 (List.dropWhile_suffix isSpace (l := (lstrip s).reverse))
    simpa using this
  rw [h] at h1
  obtain ⟨t, ht⟩ := h1
  exact dw_head isSpace s y (x ++ t) ht.symm

theorem tidy_head {s : Str} (h : Spec.NetSave.Tidy s) (c : Char) (t : Str) (hs : s = c :: t) (hc : isSpace c = true) : s = ['\n'] := by
  have key : ∀ x : Str, (x ++ ['\n']).head? = some c → x = strip s → x = [] := by
    intro x hx he
    cases x with
    | nil => rfl
    | cons y x =>
      exfalso
      simp only [List.cons_append, List.head?_cons, Option.some.injEq] at hx
      subst hx
      have := strip_visible s y x he.symm
      rw [hc] at this; cases this
  have e : strip s ++ ['\n'] = s := h
  have := key (strip s) (by rw [e, hs]; rfl) rfl
  rw [this] at e; exact e.symm

/-- The line of a directive: a dot and a word. -/
theorem other_dot (s : Str) (hk : kindOf s = some .other) (ht : Spec.NetSave.Tidy s) : ∃ u r, s = '.' :: (u ++ r) ∧ (∀ x ∈ u, endsWord x = false) ∧
    (r = [] ∨ ∃ x r', r = x :: r' ∧ endsWord x = true) ∧ lineCommand s = some (('.' :: u).map upChar) := by
  unfold kindOf at hk
  cases hc : lineCommand s with
  | none => rw [hc] at hk; simp at hk
  | some cmd =>
    rw [hc] at hk
    simp only [Option.map_some, Option.some.injEq] at hk
    rcases lineCommand_cases s cmd hc with ⟨b, u, r, rfl, hb, hu, hr, rfl⟩ | ⟨_, _, b, x, r, rfl, hb, hx, h⟩
    · cases b with
      | nil => exact ⟨u, r, rfl, hu, hr, rfl⟩
      | cons c b =>
        exfalso
        have := tidy_head ht c (b ++ '.' :: (u ++ r)) rfl (by rcases hb c (by simp) with rfl | rfl <;> decide)
        simp only [List.cons_append, List.cons.injEq] at this
        exact absurd this.2 (by simp)
    · exfalso
      rcases h with ⟨rfl, hv⟩ | ⟨rfl, _⟩ | ⟨rfl, _⟩
      · have : ∀ y ∈ validPrefixes, kind [y] ≠ .other := by decide +kernel
        exact this _ hv hk
      · exact absurd hk (by decide +kernel)
      · exact absurd hk (by decide +kernel)

theorem analysis_unique (s cmd : Str) (hk : kindOf s = some .other) (ht : Spec.NetSave.Tidy s) (hc : lineCommand s = some cmd) : analysis s = uniqueCommands.contains cmd := by
  obtain ⟨u, r, rfl, hu, hr, hc'⟩ := other_dot s hk ht
  rw [hc'] at hc
  injection hc with hc
  subst hc
  have hf : firstWord ('.' :: (u ++ r)) = ('.' :: u).map Char.toUpper := by
    unfold firstWord
    have : ('.' :: (u ++ r)).takeWhile (fun c => !(c == ' ' || c == '\t' || c == '\r' || c == '\n')) = ('.' :: (u ++ r)).takeWhile (fun d => !endsWord d) := rfl
    rw [this]
    have := takeWhile_word ('.' :: u) r (by
      intro x hx
      rcases List.mem_cons.1 hx with rfl | hx
      · decide
      · exact hu x hx) hr
    rw [← this]; rfl
  unfold analysis
  rw [hf]
  rw [Bool.eq_iff_iff, List.any_eq_true, List.contains_iff_mem, unique_spec]
  constructor
  · rintro ⟨a, ha, h⟩
    refine ⟨a, ha, ?_⟩
    rw [map_upChar_upper]
    · exact (eq_of_beq h).symm
    · intro x hx
      exact (unique_ascii a.toList ((unique_spec _).2 ⟨a, ha, rfl⟩)).1 x hx
  · rintro ⟨a, ha, h⟩
    refine ⟨a, ha, ?_⟩
    rw [map_upChar_upper] at h
    · rw [h]; simp
    · intro x hx
      exact (unique_ascii a.toList ((unique_spec _).2 ⟨a, ha, rfl⟩)).1 x hx

variable (w : WordClass) (numeric : Str → Bool) (shown : PV → Str)

/-- An element that is no directive. -/
def Plain (x : Model.Netlist.Elem) : Prop := x.obj = none ∨ ∃ s cmd, x.obj = some (some s) ∧ x.str = some s ∧ lineCommand s = some cmd ∧ (kind cmd = .comp ∨ cmd = ".CONTROL".toList ∨ cmd = ".PARAM".toList)

/-- A directive and its element. -/
structure Dir (q : Part) (el : El) (s : Str) : Prop where
  dir : directive q = some s
  el : el = .item (.prim s)
  kind : kindOf s = some .other
  param : lineCommand s ≠ some ".PARAM".toList
  tidy : Spec.NetSave.Tidy s

theorem kind_comp (s : Str) (h : kindOf s = some .comp) : ∃ cmd, lineCommand s = some cmd ∧ kind cmd = .comp := by
  unfold kindOf at h
  cases hc : lineCommand s with
  | none => rw [hc] at h; simp at h
  | some cmd => rw [hc] at h; simp only [Option.map_some, Option.some.injEq] at h; exact ⟨cmd, rfl, h⟩

theorem kind_control (cmd : Str) (h : kind cmd = .control) : cmd = ".CONTROL".toList := by
  unfold kind at h
  split_ifs at h with h1 h2
  exact h2

theorem shape_rel (q : Part) (el : El) (h : Rel w numeric q el) : (∃ s, Dir q el s) ∨ (directive q = none ∧ Plain (asElem el)) := by
  cases q with
  | comp l sh =>
    obtain ⟨l', rfl, _, hok, _⟩ := h
    obtain ⟨cmd, g1, g2⟩ := kind_comp _ (Props.NetSave.kind_letter _ _ (Props.NetSave.letter_prefix _ (.inl ⟨sh, hok.1.shape⟩)))
    exact .inr ⟨rfl, .inr ⟨_, cmd, rfl, rfl, g1, .inl g2⟩⟩
  | short l k =>
    obtain ⟨rfl, hok⟩ := h
    obtain ⟨cmd, g1, g2⟩ := kind_comp _ (Props.NetSave.kind_letter _ _ (Props.NetSave.letter_prefix _ (.inr ⟨k, hok.1.kind⟩)))
    exact .inr ⟨rfl, .inr ⟨_, cmd, rfl, rfl, g1, .inl g2⟩⟩
  | params l =>
    obtain ⟨l', rfl, _, hok⟩ := h
    exact .inr ⟨rfl, .inr ⟨_, _, rfl, rfl, params_command l' hok, .inr (.inr rfl)⟩⟩
  | block b =>
    obtain ⟨rfl, hok⟩ := h
    cases b with
    | line s =>
      obtain ⟨hb, hneat, hincl, _, hn⟩ := hok
      have hn := hn s rfl
      have hb : kindOf s = some .text ∨ kindOf s = some .comp ∨ kindOf s = some .incl ∨ kindOf s = some .other := hb
      rcases hb with hb | hb | hb | hb
      · refine .inr ⟨by simp [directive, hb], .inl ?_⟩
        simp only [Props.NetTree.item, hb]; rfl
      · exact absurd hb hn.1
      · exfalso
        simp [Spec.NetSave.Block.includes, hb] at hincl
      · refine .inl ⟨s, by simp [directive, hb], by simp only [Props.NetTree.item, hb], hb, hn.2, ?_⟩
        have hneat : kindOf s = some .text ∨ kindOf s = some .incl ∨ (kindOf s = some .other ∧ Spec.NetSave.Tidy s) ∨ Spec.NetSave.CompOk w.word (NameOk numeric) s := hneat
        rcases hneat with g | g | g | g
        · rw [hb] at g; cases g
        · rw [hb] at g; cases g
        · exact g.2
        · exfalso
          have : kindOf s = some .comp := by
            rcases g with ⟨l, sh, rfl, g, _⟩ | ⟨l, k, rfl, g, _⟩
            · exact Props.NetSave.kind_letter _ _ (Props.NetSave.letter_prefix _ (.inl ⟨sh, g.shape⟩))
            · exact Props.NetSave.kind_letter _ _ (Props.NetSave.letter_prefix _ (.inr ⟨k, g.kind⟩))
          rw [hb] at this; cases this
    | subckt hd body t => exact .inr ⟨rfl, .inl rfl⟩
    | control hd body t =>
      refine .inr ⟨rfl, .inr ⟨_, ".CONTROL".toList, rfl, rfl, ?_, .inr (.inl rfl)⟩⟩
      obtain ⟨⟨hk, _⟩, hneat, _⟩ := hok
      have hneat : ∀ l ∈ hd :: (body ++ [t]), rstrip l ++ ['\n'] = l := hneat
      have h0 := hneat hd (by simp)
      unfold kindOf at hk
      cases hc : lineCommand hd with
      | none => rw [hc] at hk; simp at hk
      | some cmd =>
        rw [hc] at hk
        simp only [Option.map_some, Option.some.injEq] at hk
        rw [List.flatMap_cons, List.append_assoc]
        rw [show ['\n'] ++ ((body ++ [t]).flatMap fun l => rstrip l ++ ['\n']) = '\n' :: ((body ++ [t]).flatMap fun l => rstrip l ++ ['\n']) from rfl, command_first, h0, hc, kind_control cmd hk]

/-! ### Searches -/

variable (e : Str) (he : kindOf e = some .closing) (ht : Spec.NetSave.Tidy e)

theorem closing_command (e : Str) (he : kindOf e = some .closing) : ∃ cmd, lineCommand e = some cmd ∧ kind cmd = .closing := by
  unfold kindOf at he
  cases hc : lineCommand e with
  | none => rw [hc] at he; simp at he
  | some cmd => rw [hc] at he; simp only [Option.map_some, Option.some.injEq] at he; exact ⟨cmd, rfl, he⟩

theorem unique_kind (cmd : Str) (h : cmd ∈ uniqueCommands) : kind cmd = .other ∧ cmd ≠ ".PARAM".toList ∧ cmd ≠ ".CONTROL".toList := by
  revert cmd
  decide +kernel

theorem find_cons (p : Part → Bool) (q : Part) (qs : List Part) : (q :: qs).findIdx? p = if p q then some 0 else (qs.findIdx? p).map (· + 1) := by
  rw [List.findIdx?_cons]

include he in
theorem unique_rel : ∀ (qs : List Part) (els : List El), List.Forall₂ (Rel w numeric) qs els →
    findUnique ((els ++ [El.item (.prim e)]).map asElem) = .ok (qs.findIdx? isAnalysis) := by
  intro qs
  induction qs with
  | nil =>
    intro els h
    cases h
    obtain ⟨cmd, c1, c2⟩ := closing_command e he
    have hu : isUnique e = some false := by
      unfold isUnique
      rw [c1, Option.map_some, Option.some.injEq]
      rw [Bool.eq_false_iff]
      intro h
      have := (unique_kind cmd (by simpa using h)).1
      rw [c2] at this; cases this
    simp only [List.nil_append, List.map_cons, List.map_nil, asElem, findUnique, Model.Netlist.Elem.obj, hu]
    rfl
  | cons q qs ih =>
    intro els h
    cases h with
    | cons hq htl =>
      rename_i el els
      have ih := ih els htl
      rw [find_cons, List.cons_append, List.map_cons, findUnique, ih]
      rcases shape_rel w numeric q el hq with ⟨s, hd⟩ | ⟨hd, hp⟩
      · obtain ⟨h1, rfl, h3, h4, h5⟩ := hd
        obtain ⟨u, r, _, _, _, hc⟩ := other_dot s h3 h5
        have ha := analysis_unique s _ h3 h5 hc
        have hi : isAnalysis q = analysis s := by simp [isAnalysis, h1]
        have hu : isUnique s = some (analysis s) := by unfold isUnique; rw [hc, ha]; rfl
        simp only [asElem, Model.Netlist.Elem.obj, hu, hi]
        cases analysis s <;> rfl
      · have hi : isAnalysis q = false := by simp [isAnalysis, hd]
        rw [hi]
        rcases hp with hp | ⟨s, cmd, hp, _, hc, hk⟩
        · simp only [hp]; rfl
        · have hu : isUnique s = some false := by
            unfold isUnique
            rw [hc, Option.map_some, Option.some.injEq, Bool.eq_false_iff]
            intro h
            obtain ⟨k1, k2, k3⟩ := unique_kind cmd (by simpa using h)
            rcases hk with hk | hk | hk
            · rw [k1] at hk; cases hk
            · exact k3 hk
            · exact k2 hk
          simp only [hp, hu]; rfl

theorem plain_visible (cmd : Str) (hk : kind cmd = .comp ∨ cmd = ".CONTROL".toList ∨ cmd = ".PARAM".toList) : (∀ c ∈ cmd, isSpace c = false) ∧ cmd ≠ ['*'] := by
  rcases hk with hk | rfl | rfl
  · unfold kind at hk
    split_ifs at hk with h1 h2 h3 h4 h5
    · refine ⟨fun c hc => prefix_visible c (h5.2 c hc), ?_⟩
      rintro rfl
      exact absurd (h5.2 '*' (by simp)) (by decide +kernel)
  · exact ⟨by decide, by decide⟩
  · exact ⟨by decide, by decide⟩

theorem plain_text (d s cmd : Str) (hd : Directive d) (hc : lineCommand s = some cmd) (hk : kind cmd = .comp ∨ cmd = ".CONTROL".toList ∨ cmd = ".PARAM".toList) :
    strip s ≠ strip d := by
  intro h
  obtain ⟨v1, v2⟩ := plain_visible cmd hk
  have := command_strip s cmd hc v1 v2
  have ht : strip d ++ ['\n'] = d := hd.tidy
  rw [h, ht] at this
  have hkd := hd.kind
  unfold kindOf at hkd
  rw [this, Option.map_some, Option.some.injEq] at hkd
  rcases hk with hk | rfl | rfl
  · rw [hk] at hkd; cases hkd
  · exact absurd hkd (by decide +kernel)
  · exact hd.param this

include he ht in
theorem text_rel (d : Str) (hd : Directive d) : ∀ (qs : List Part) (els : List El), List.Forall₂ (Rel w numeric) qs els →
    findText d ((els ++ [El.item (.prim e)]).map asElem) = .ok (qs.findIdx? (fun p => directive p == some d)) := by
  have tidy_eq : ∀ s, Spec.NetSave.Tidy s → strip s = strip d → s = d := by
    intro s hs h
    have h1 : strip s ++ ['\n'] = s := hs
    have h2 : strip d ++ ['\n'] = d := hd.tidy
    rw [← h1, h, h2]
  intro qs
  induction qs with
  | nil =>
    intro els h
    cases h
    have : strip e ≠ strip d := by
      intro h
      have := tidy_eq e ht h
      subst this
      rw [hd.kind] at he; cases he
    simp only [List.nil_append, List.map_cons, List.map_nil, asElem, findText, Model.Netlist.Elem.obj, this, if_false]
    rfl
  | cons q qs ih =>
    intro els h
    cases h with
    | cons hq htl =>
      rename_i el els
      have ih := ih els htl
      rw [find_cons, List.cons_append, List.map_cons, findText, ih]
      rcases shape_rel w numeric q el hq with ⟨s, hd'⟩ | ⟨hd', hp⟩
      · obtain ⟨h1, rfl, h3, h4, h5⟩ := hd'
        simp only [asElem, Model.Netlist.Elem.obj, h1]
        by_cases c : s = d
        · subst c; simp
        · have : strip s ≠ strip d := fun h => c (tidy_eq s h5 h)
          simp only [this, if_false, Option.some_beq_some, beq_iff_eq, c]
      · simp only [hd']
        rcases hp with hp | ⟨s, cmd, hp, _, hc, hk⟩
        · simp only [hp]; rfl
        · have := plain_text d s cmd hd hc hk
          simp only [hp, this, if_false]; rfl

include he in
theorem backanno_rel : ∀ (qs : List Part) (els : List El), List.Forall₂ (Rel w numeric) qs els →
    findBackanno ((els ++ [El.item (.prim e)]).map asElem) = qs.findIdx? isBackanno := by
  have no : ∀ (s cmd : Str), lineCommand s = some cmd → (kind cmd = .comp ∨ cmd = ".CONTROL".toList ∨ cmd = ".PARAM".toList ∨ kind cmd = .closing) →
      ".backanno".toList.isPrefixOf (lower s) = false := by
    intro s cmd hc hk
    rw [Bool.eq_false_iff]
    intro h
    obtain ⟨cmd', c1, c2, c3⟩ := backanno_command s h
    rw [hc] at c1
    injection c1 with c1
    subst c1
    rcases hk with hk | rfl | hk | hk
    · rw [c2] at hk; cases hk
    · exact absurd c2 (by decide +kernel)
    · exact c3 hk
    · rw [c2] at hk; cases hk
  intro qs
  induction qs with
  | nil =>
    intro els h
    cases h
    obtain ⟨cmd, c1, c2⟩ := closing_command e he
    have := no e cmd c1 (.inr (.inr (.inr c2)))
    simp only [List.nil_append, List.map_cons, List.map_nil, asElem, findBackanno, Model.Netlist.Elem.obj, this]
    rfl
  | cons q qs ih =>
    intro els h
    cases h with
    | cons hq htl =>
      rename_i el els
      have ih := ih els htl
      rw [find_cons, List.cons_append, List.map_cons, findBackanno, ih]
      rcases shape_rel w numeric q el hq with ⟨s, hd⟩ | ⟨hd, hp⟩
      · obtain ⟨h1, rfl, h3, h4, h5⟩ := hd
        have hi : isBackanno q = ".backanno".toList.isPrefixOf (lower s) := by simp only [isBackanno, h1, Option.any_some]
        simp only [asElem, Model.Netlist.Elem.obj, hi]
      · have hi : isBackanno q = false := by simp only [isBackanno, hd, Option.any_none]
        rw [hi]
        rcases hp with hp | ⟨s, cmd, hp, _, hc, hk⟩
        · simp only [hp, Bool.false_eq_true, if_false]
        · have := no s cmd hc (by tauto)
          simp only [hp, this, Bool.false_eq_true, if_false]

theorem index_rel (r e : Str) : ∀ (qs : List Part) (els : List El), List.Forall₂ (Rel w numeric) qs els →
    indexOf r (els ++ [El.item (.prim e)]) = qs.findIdx? (named r) := by
  intro qs
  induction qs with
  | nil => intro els h; cases h; rfl
  | cons q qs ih =>
    intro els h
    cases h with
    | cons hq htl =>
      rename_i el els
      have ih := ih els htl
      rw [find_cons]
      cases q with
      | comp l sh =>
        obtain ⟨l', rfl, hs, _⟩ := hq
        have e1 : (Props.CompLine.read l').ref = l.reference := same_reference hs
        simp only [List.cons_append, indexOf, ih, e1, named, Part.entry, Option.any_some, beq_iff_eq]
      | short l k =>
        obtain ⟨rfl, _⟩ := hq
        simp only [List.cons_append, indexOf, ih, named, Part.entry, Option.any_some, beq_iff_eq]
      | params l =>
        obtain ⟨l', rfl, _⟩ := hq
        simp only [List.cons_append, indexOf, ih]; rfl
      | block b =>
        obtain ⟨rfl, _⟩ := hq
        simp only [List.cons_append, indexOf, ih]; rfl

/-! ### One change -/

theorem rel_set {α β : Type} {R : α → β → Prop} {x : α} {y : β} (hxy : R x y) : ∀ (a : List α) (b : List β) (i : Nat), List.Forall₂ R a b → List.Forall₂ R (a.set i x) (b.set i y) := by
  intro a b i h
  induction h generalizing i with
  | nil => exact .nil
  | cons hr ht ih =>
    cases i with
    | zero => exact .cons hxy ht
    | succ i => exact .cons hr (ih i)

theorem rel_erase {α β : Type} {R : α → β → Prop} : ∀ (a : List α) (b : List β) (i : Nat), List.Forall₂ R a b → List.Forall₂ R (a.eraseIdx i) (b.eraseIdx i) := by
  intro a b i h
  induction h generalizing i with
  | nil => exact .nil
  | cons hr ht ih =>
    cases i with
    | zero => exact ht
    | succ i => exact .cons hr (ih i)

theorem rel_put {qs : List Part} {els : List El} {p : Part} {el : El} (i : Nat) (h : List.Forall₂ (Rel w numeric) qs els) (hp : Rel w numeric p el) :
    List.Forall₂ (Rel w numeric) (putAt i p qs) (els.take i ++ el :: els.drop i) :=
  List.rel_append (List.forall₂_take _ h) (.cons hp (List.forall₂_drop _ h))

theorem dir_ok (d : Str) (hd : Directive d) : (Part.block (.line d)).Ok w.word (NameOk numeric) := by
  refine ⟨.inr (.inr (.inr hd.kind)), .inr (.inr (.inl ⟨hd.kind, hd.tidy⟩)), by simp [Spec.NetSave.Block.includes, hd.kind], ?_, ?_⟩
  · intro s hs
    simp only [Block.lines, List.mem_singleton] at hs
    rw [hs]; exact hd.oneLine
  · intro s hs
    simp only [Block.line.injEq] at hs
    subst hs
    exact ⟨by rw [hd.kind]; simp, hd.param⟩

theorem dir_rel (d : Str) (hd : Directive d) : Rel w numeric (.block (.line d)) (.item (.prim d)) := by
  refine ⟨?_, dir_ok w numeric d hd⟩
  simp only [Props.NetTree.item, hd.kind]

theorem find_lt {p : Part → Bool} {qs : List Part} {i : Nat} (h : qs.findIdx? p = some i) : i < qs.length ∧ qs.findIdx p = i := by
  rw [List.findIdx?_eq_some_iff_findIdx_eq] at h; exact h

theorem findText_congr {a b : Str} (h : strip a = strip b) (l : List Model.Netlist.Elem) : findText a l = findText b l := by
  induction l with
  | nil => rfl
  | cons x l ih => simp only [findText, h, ih]

theorem asLine_eq (s : Str) : asLine s = withNewline s := rfl

theorem strip_asLine (s : Str) : strip s = strip (asLine s) := (Props.Netlist.withNewline_strip s).symm

theorem dir_class (d cmd : Str) (hd : Directive d) (hc : lineCommand d = some cmd) : elFor d cmd = some (.item (.prim d)) := by
  obtain ⟨u, r, _, _, _, hc'⟩ := other_dot d hd.kind hd.tidy
  have hk := hd.kind
  unfold kindOf at hk
  rw [hc, Option.map_some, Option.some.injEq] at hk
  rw [hc'] at hc
  injection hc with hc
  have hh : cmd.head? = some '.' := by
    rw [← hc]
    simp only [List.map_cons, List.head?_cons]
    decide
  have h1 : cmd ≠ ".CONTROL".toList := by rintro rfl; exact absurd hk (by decide +kernel)
  have h2 : ".INC".toList.isPrefixOf cmd = false := by
    rw [Bool.eq_false_iff]; intro h
    unfold kind at hk
    split_ifs at hk
  have h3 : ¬ (cmd.length = 1 ∧ ∀ c ∈ cmd, c ∈ validPrefixes) := by
    intro h
    unfold kind at hk
    split_ifs at hk
  unfold elFor classFor
  simp only [h1, if_false, h2, Bool.false_eq_true, h3, hh, if_true]

variable (included : Str → Option Str)

include he ht in
theorem put_rel (d cmd : Str) (hd : Directive d) (hc : lineCommand d = some cmd) (qs : List Part) (els : List El) (h : List.Forall₂ (Rel w numeric) qs els) :
    ∃ els1, addOther d cmd (els ++ [El.item (.prim e)]) = some (els1 ++ [El.item (.prim e)]) ∧ List.Forall₂ (Rel w numeric) (putDirective d qs) els1 := by
  unfold addOther
  rw [text_rel w numeric e he ht d hd qs els h]
  have hany : qs.any (fun p => directive p == some d) = (qs.findIdx? (fun p => directive p == some d)).isSome := by rw [List.findIdx?_isSome]
  unfold putDirective
  rw [hany]
  cases hf : qs.findIdx? (fun p => directive p == some d) with
  | some i => exact ⟨els, rfl, h⟩
  | none =>
    simp only [Option.isSome_none, Bool.false_eq_true, if_false]
    have hlen := h.length_eq
    have hi : (qs.findIdx? isBackanno).getD ((els ++ [El.item (.prim e)]).length - 1) = (qs.findIdx? isBackanno).getD qs.length := by
      rw [List.length_append, List.length_singleton, Nat.add_sub_cancel, hlen]
    have hle : (qs.findIdx? isBackanno).getD qs.length ≤ els.length := by
      cases hb : qs.findIdx? isBackanno with
      | none => rw [← hlen]; exact Nat.le_refl _
      | some j => rw [← hlen]; exact Nat.le_of_lt (find_lt hb).1
    refine ⟨els.take ((qs.findIdx? isBackanno).getD qs.length) ++ .item (.prim d) :: els.drop ((qs.findIdx? isBackanno).getD qs.length), ?_, rel_put w numeric _ h (dir_rel w numeric d hd)⟩
    unfold insertInstruction
    rw [backanno_rel w numeric e he qs els h]
    simp only [dir_class d cmd hd hc, Option.map_some, Option.some.injEq]
    rw [hi, List.take_append_of_le_length hle, List.drop_append_of_le_length hle]
    simp

variable (hl : OneLine e)

include he ht hl in
theorem step_rel (c : Change) (qs : List Part) (els : List El) (h : List.Forall₂ (Rel w numeric) qs els) (ha : Allowed w.word (NameOk numeric) qs c) :
    ∃ els1, step w numeric shown included (els ++ [El.item (.prim e)]) c.op = some (els1 ++ [El.item (.prim e)]) ∧ List.Forall₂ (Rel w numeric) (changed qs c) els1 := by
  have hlen := h.length_eq
  cases c with
  | edit op =>
    have hleg : Legal w.word [op] qs := by
      constructor
      · intro r v hm
        rw [List.mem_singleton] at hm
        subst hm
        exact ha
      · intro p v hm
        rw [List.mem_singleton] at hm
        subst hm
        exact ha
    obtain ⟨els1, k1, k2⟩ := run_rel w numeric shown included e he hl ht [op] qs els h hleg
    refine ⟨els1, ?_, k2⟩
    simp only [Model.EditSave.run] at k1
    cases hs : Model.EditSave.step w numeric shown included (els ++ [El.item (.prim e)]) op with
    | none => rw [hs] at k1; simp at k1
    | some x =>
      rw [hs] at k1
      simp only [Option.bind_some, Option.some.injEq] at k1
      simp only [Change.op, step, hs, k1]
  | add p place =>
    obtain ⟨hok, hcomp, hpl⟩ := ha
    obtain ⟨el, t1, t2⟩ := to_rel w numeric shown p hok
    have hitem : Props.NetTree.item p.toBlock = .comp (line p) := by
      cases p with
      | comp l sh =>
        have hk : kindOf (l.text ++ ['\n']) = some .comp := Props.NetSave.kind_letter _ _ (Props.NetSave.letter_prefix _ (.inl ⟨sh, hok.1.shape⟩))
        simp only [line, Part.toBlock, Props.NetTree.item, hk, Block.lines, List.flatten_cons, List.flatten_nil, List.append_nil]
      | short l k =>
        have hk : kindOf (l.text ++ ['\n']) = some .comp := Props.NetSave.kind_letter _ _ (Props.NetSave.letter_prefix _ (.inr ⟨k, hok.1.kind⟩))
        simp only [line, Part.toBlock, Props.NetTree.item, hk, Block.lines, List.flatten_cons, List.flatten_nil, List.append_nil]
      | params l => exact absurd hcomp (by simp [IsComponent])
      | block b => exact absurd hcomp (by simp [IsComponent])
    rw [hitem] at t1
    have hpos : position (els ++ [El.item (.prim e)]) place = placeOf qs place := by
      cases place with
      | default =>
        simp only [position, placeOf, List.length_append, List.length_singleton, Option.some.injEq]
        omega
      | before r => exact index_rel w numeric r e qs els h
      | after r => simp only [position, placeOf, index_rel w numeric r e qs els h]
    obtain ⟨i, hi⟩ := Option.isSome_iff_exists.1 hpl
    have hle : i ≤ els.length := by
      cases place with
      | default => simp only [placeOf, Option.some.injEq] at hi; omega
      | before r => have := (find_lt hi).1; omega
      | after r =>
        simp only [placeOf, Option.map_eq_some_iff] at hi
        obtain ⟨j, hj, rfl⟩ := hi
        have := (find_lt hj).1; omega
    refine ⟨els.take i ++ el :: els.drop i, ?_, ?_⟩
    · simp only [Change.op, step, addComponent, t1, hpos, hi, Option.some.injEq]
      rw [List.take_append_of_le_length hle, List.drop_append_of_le_length hle]
      simp
    · simp only [changed, hi, Option.map_some, Option.getD_some]
      exact rel_put w numeric i h t2
  | remove r =>
    have hany : qs.any (named r) = true := ha
    rw [← List.findIdx?_isSome] at hany
    obtain ⟨i, hi⟩ := Option.isSome_iff_exists.1 hany
    obtain ⟨h1, h2⟩ := find_lt hi
    refine ⟨els.eraseIdx i, ?_, ?_⟩
    · simp only [Change.op, step, removeComponent, index_rel w numeric r e qs els h, hi, Option.map_some, Option.some.injEq]
      rw [List.eraseIdx_append_of_lt_length (by omega)]
    · simp only [changed, h2]
      exact rel_erase _ _ i h
  | instruct s =>
    have hd : Directive (asLine s) := ha
    obtain ⟨u, r, _, _, _, hc⟩ := other_dot _ hd.kind hd.tidy
    generalize hcmd : ('.' :: u).map upChar = cmd at hc
    have hu := isUnique_command _ _ hc
    have hcan := analysis_unique _ _ hd.kind hd.tidy hc
    rw [← hcan] at hu
    have hnp : cmd ≠ ".PARAM".toList := by rintro rfl; exact hd.param hc
    obtain ⟨els1, p1, p2⟩ := put_rel w numeric e he ht _ cmd hd hc qs els h
    simp only [Change.op, step, addInstruction, ← asLine_eq, hc, hu, changed, addDirective]
    cases hA : analysis (asLine s) with
    | false =>
      simp only [hnp, if_false, Bool.false_and, Bool.false_eq_true]
      exact ⟨els1, p1, p2⟩
    | true =>
      simp only [unique_rel w numeric e he qs els h, Bool.true_and, ← List.findIdx?_isSome (p := isAnalysis)]
      cases hf : qs.findIdx? isAnalysis with
      | none =>
        simp only [Option.isSome_none, Bool.false_eq_true, if_false]
        exact ⟨els1, p1, p2⟩
      | some i =>
        obtain ⟨h1, h2⟩ := find_lt hf
        refine ⟨els.set i (.item (.prim (asLine s))), ?_, ?_⟩
        · simp only [Option.some.injEq]
          rw [List.set_append_left _ _ (by omega)]
        · simp only [Option.isSome_some, if_true, h2]
          exact rel_set (dir_rel w numeric _ hd) _ _ i h
  | drop s =>
    have hd : Directive (asLine s) := ha
    simp only [Change.op, step, removeInstruction, findText_congr (strip_asLine s), text_rel w numeric e he ht _ hd qs els h, changed]
    cases hf : qs.findIdx? (fun p => directive p == some (asLine s)) with
    | none =>
      refine ⟨els, rfl, ?_⟩
      rw [List.findIdx?_eq_none_iff_findIdx_eq] at hf
      rw [hf, List.eraseIdx_of_length_le (Nat.le_refl _)]
      exact h
    | some i =>
      obtain ⟨h1, h2⟩ := find_lt hf
      refine ⟨els.eraseIdx i, ?_, ?_⟩
      · simp only [Option.some.injEq]
        rw [List.eraseIdx_append_of_lt_length (by omega)]
      · rw [h2]
        exact rel_erase _ _ i h
  | dropAll f =>
    have hf : ∀ s, f s = true → kindOf s = some .other ∧ lineCommand s ≠ some ".PARAM".toList := ha
    have no : ∀ s cmd, lineCommand s = some cmd → (kind cmd ≠ .other ∨ cmd = ".PARAM".toList) → f s = false := by
      intro s cmd hc hk
      rw [Bool.eq_false_iff]
      intro h
      obtain ⟨h1, h2⟩ := hf s h
      unfold kindOf at h1
      rw [hc, Option.map_some, Option.some.injEq] at h1
      rcases hk with hk | rfl
      · exact hk h1
      · exact h2 hc
    have htxt : ∀ q el, Rel w numeric q el → (match (asElem el).str with | some s => !f s | none => true) = !(directive q).any f := by
      intro q el hq
      rcases shape_rel w numeric q el hq with ⟨s, hd⟩ | ⟨hd, hp⟩
      · obtain ⟨h1, rfl, _⟩ := hd
        simp [h1, asElem, Model.Netlist.Elem.str]
      · rw [hd]
        rcases hp with hp | ⟨s, cmd, _, hp, hc, hk⟩
        · cases hx : asElem el with
          | text s =>
            -- a comment
            have : f s = false := by
              cases q with
              | block b =>
                obtain ⟨rfl, hok⟩ := hq
                cases b with
                | line t =>
                  obtain ⟨hb, _, _, _, _⟩ := hok
                  have hb : kindOf t = some .text ∨ kindOf t = some .comp ∨ kindOf t = some .incl ∨ kindOf t = some .other := hb
                  simp only [Props.NetTree.item] at hx
                  rcases hb with hb | hb | hb | hb
                  · rw [hb] at hx
                    simp only [asElem, Model.Netlist.Elem.text.injEq] at hx
                    subst hx
                    rw [Bool.eq_false_iff]
                    intro h
                    rw [(hf t h).1] at hb; cases hb
                  all_goals (rw [hb] at hx; simp [asElem] at hx)
                | subckt _ _ _ => simp [Props.NetTree.item, asElem] at hx
                | control _ _ _ => simp [Props.NetTree.item, asElem] at hx
              | comp l sh => obtain ⟨l', rfl, _⟩ := hq; simp [asElem] at hx
              | short l k => obtain ⟨rfl, _⟩ := hq; simp [asElem] at hx
              | params l => obtain ⟨l', rfl, _⟩ := hq; simp [asElem] at hx
            simp [Model.Netlist.Elem.str, this]
          | sub n => simp [Model.Netlist.Elem.str]
          | prim s => rw [hx] at hp; cases hp
          | incl s => rw [hx] at hp; cases hp
          | comp o => rw [hx] at hp; simp only [Model.Netlist.Elem.obj, reduceCtorEq] at hp
          | ctrl o => rw [hx] at hp; simp only [Model.Netlist.Elem.obj, reduceCtorEq] at hp
        · have : f s = false := by
            refine no s cmd hc ?_
            rcases hk with hk | rfl | rfl
            · left; rw [hk]; simp
            · left; decide +kernel
            · right; rfl
          simp [hp, this]
    obtain ⟨cmd, c1, c2⟩ := closing_command e he
    have hfe : f e = false := no e cmd c1 (.inl (by rw [c2]; simp))
    refine ⟨els.filter (fun el => match (asElem el).str with | some s => !f s | none => true), ?_, ?_⟩
    · simp only [Change.op, step, removeX, List.filter_append, Option.some.injEq]
      congr 1
      simp [asElem, Model.Netlist.Elem.str, hfe]
    · simp only [changed]
      clear hlen ha
      induction h with
      | nil => exact .nil
      | @cons q el qs els hq _ ih =>
        have := htxt _ _ hq
        simp only [List.filter_cons]
        rw [this]
        cases (!(directive q).any f) with
        | false => simpa using ih
        | true => simpa using List.Forall₂.cons hq ih

include he ht hl in
theorem session_rel : ∀ (cs : List Change) (qs : List Part) (els : List El), List.Forall₂ (Rel w numeric) qs els → Spec.Session.Session w.word (NameOk numeric) qs cs →
    ∃ els', run w numeric shown included (els ++ [El.item (.prim e)]) (cs.map Change.op) = some (els' ++ [El.item (.prim e)]) ∧ List.Forall₂ (Rel w numeric) (cs.foldl changed qs) els' := by
  intro cs
  induction cs with
  | nil => intro qs els h _; exact ⟨els, rfl, h⟩
  | cons c cs ih =>
    intro qs els h hs
    obtain ⟨els1, k1, k2⟩ := step_rel w numeric shown e he ht included hl c qs els h hs.1
    obtain ⟨els', m1, m2⟩ := ih _ els1 k2 hs.2
    refine ⟨els', ?_, m2⟩
    simp only [List.map_cons, run, k1, Option.bind_some]
    exact m1

/-! ### The property -/

include he ht hl in
/-- C105: a netlist is opened, edited in any way (values, parameters, components and directives added and removed, saved and opened again), and saved: the file that is written is the netlist that the
changes describe, one line per part and in the same order (up to blanks between the pieces of component and parameter lines), and when it is opened again every value and every parameter
is the one of that netlist. -/
theorem C105_session (ps : List Part) (hok : ∀ p ∈ ps, p.Ok w.word (NameOk numeric)) (cs : List Change) (hs : Spec.Session.Session w.word (NameOk numeric) ps cs) :
    ∃ els els' els'' ps', openText w numeric shown (fileText ps e) = some els ∧ run w numeric shown included els (cs.map Change.op) = some els' ∧
      save w numeric shown included els' = some (fileText ps' e) ∧ List.Forall₂ Part.Same (cs.foldl changed ps) ps' ∧ (∀ p ∈ ps', p.Ok w.word (NameOk numeric)) ∧
      openText w numeric shown (fileText ps' e) = some els'' ∧
      ∀ r, getValue r els'' = first r (cs.foldl changed ps) ∧ getParameter r els'' = paramOf r (cs.foldl changed ps) := by
  obtain ⟨els, h1, h2⟩ := open_rel w numeric shown ps hok e he hl
  obtain ⟨els', h3, h4⟩ := session_rel w numeric shown e he ht included hl cs ps els h2 hs
  have hsave : save w numeric shown included [El.item (.prim e)] = some e := by
    simp only [save, Model.EditSave.writeEl, Model.NetTree.writeItem]
    rw [ht]; simp
  obtain ⟨ps', g1, g2, g3⟩ := save_rel w numeric shown included [El.item (.prim e)] e hsave _ els' h4
  obtain ⟨els'', o1, o2⟩ := open_rel w numeric shown ps' g2 e he hl
  refine ⟨_, _, els'' ++ [El.item (.prim e)], ps', h1, h3, by rw [g3]; simp [fileText], g1, g2, o1, ?_⟩
  intro r
  constructor
  · rw [get_rel w numeric r [El.item (.prim e)] rfl _ els'' o2]
    exact first_same r _ _ g1
  · rw [get_param_rel w numeric r e he _ els'' o2]
    exact param_same r _ _ g1

/-! ### What the changes do -/

theorem dirs_put (ps : List Part) (p : Part) (i : Nat) (hp : directive p = none) : (putAt i p ps).filterMap directive = ps.filterMap directive := by
  unfold putAt
  rw [List.filterMap_append, List.filterMap_cons, hp, ← List.filterMap_append, List.take_append_drop]

theorem dirs_edited (ps : List Part) (op : Model.EditSave.Op) : (edited ps op).filterMap directive = ps.filterMap directive := by
  cases op with
  | reopen => rfl
  | set r v =>
    show (setFirst r v ps).filterMap directive = _
    induction ps with
    | nil => rfl
    | cons q ps ih =>
      cases q with
      | comp l sh =>
        simp only [setFirst]
        split
        · rfl
        · simp only [List.filterMap_cons, directive, ih]
      | short l k => simp only [setFirst, List.filterMap_cons, directive, ih]
      | params l => simp only [setFirst, List.filterMap_cons, directive, ih]
      | block b => simp only [setFirst, List.filterMap_cons, ih]
  | param p v =>
    show (setParamOf p v ps).filterMap directive = _
    unfold setParamOf
    split
    · rename_i hs
      clear hs
      induction ps with
      | nil => rfl
      | cons q ps ih =>
        cases q with
        | params l =>
          simp only [setDefined]
          split
          · rfl
          · simp only [List.filterMap_cons, directive, ih]
        | comp l sh => simp only [setDefined, List.filterMap_cons, directive, ih]
        | short l k => simp only [setDefined, List.filterMap_cons, directive, ih]
        | block b => simp only [setDefined, List.filterMap_cons, ih]
    · exact dirs_put ps _ _ rfl

theorem dirs_erase (ps : List Part) (p : Part → Bool) (hp : ∀ q, p q = true → directive q = none) : (ps.eraseIdx (ps.findIdx p)).filterMap directive = ps.filterMap directive := by
  induction ps with
  | nil => rfl
  | cons q ps ih =>
    rw [List.findIdx_cons]
    cases h : p q with
    | true => simp [hp q h]
    | false => simp only [cond_false, List.eraseIdx_cons_succ, List.filterMap_cons, ih]

theorem named_component (r : Str) (q : Part) (h : named r q = true) : directive q = none := by
  cases q with
  | comp l sh => rfl
  | short l k => rfl
  | params l => rfl
  | block b => simp [named, Part.entry] at h

theorem dirs_all (ps : List Part) (f : Str → Bool) : (ps.filter (fun p => !(directive p).any f)).filterMap directive = (ps.filterMap directive).filter (fun s => !f s) := by
  induction ps with
  | nil => rfl
  | cons q ps ih =>
    rw [List.filter_cons, List.filterMap_cons]
    cases h : directive q with
    | none => simp [h, ih]
    | some s =>
      cases hf : f s with
      | true => simp [hf, ih]
      | false => simp [hf, h, ih]

/-- The directives after one change of the kinds that are not about directives. -/
theorem dirs_other (ps : List Part) (c : Change) (name : Str → Prop) (word : Char → Bool) (ha : Allowed word name ps c)
    (hc : ∀ s f, c ≠ .instruct s ∧ c ≠ .drop s ∧ c ≠ .dropAll f) : (changed ps c).filterMap directive = ps.filterMap directive := by
  cases c with
  | edit op => exact dirs_edited ps op
  | add p place =>
    obtain ⟨_, hcomp, hpl⟩ := ha
    obtain ⟨i, hi⟩ := Option.isSome_iff_exists.1 hpl
    simp only [changed, hi, Option.map_some, Option.getD_some]
    apply dirs_put
    cases p <;> first | rfl | exact absurd hcomp (by simp [IsComponent])
  | remove r => exact dirs_erase ps (named r) (named_component r)
  | instruct s => exact absurd rfl (hc s (fun _ => false)).1
  | drop s => exact absurd rfl (hc s (fun _ => false)).2.1
  | dropAll f => exact absurd rfl (hc [] f).2.2

/-- The analysis directives of a netlist. -/
theorem analyses_eq (ps : List Part) : (ps.filter isAnalysis).length = ((ps.filterMap directive).filter analysis).length := by
  induction ps with
  | nil => rfl
  | cons q ps ih =>
    rw [List.filter_cons, List.filterMap_cons]
    cases h : directive q with
    | none => simp [isAnalysis, h] at ih ⊢; exact ih
    | some s =>
      have : isAnalysis q = analysis s := by simp [isAnalysis, h]
      rw [this]
      cases ha : analysis s with
      | true => simp [ha, ih]
      | false => simp [ha, ih]

theorem analyses_changed (ps : List Part) (c : Change) (name : Str → Prop) (word : Char → Bool) (ha : Allowed word name ps c) (h : (ps.filter isAnalysis).length ≤ 1) :
    ((changed ps c).filter isAnalysis).length ≤ 1 := by
  have sub : ∀ qs : List Part, qs.Sublist ps → (qs.filter isAnalysis).length ≤ 1 := fun qs hq => Nat.le_trans (List.Sublist.length_le (hq.filter isAnalysis)) h
  have put : ∀ d i, (analysis d = true → ps.any isAnalysis = false) → ((putAt i (.block (.line d)) ps).filter isAnalysis).length ≤ 1 := by
    intro d i hd
    unfold putAt
    rw [List.filter_append, List.filter_cons]
    have e : (ps.take i).filter isAnalysis ++ (ps.drop i).filter isAnalysis = ps.filter isAnalysis := by rw [← List.filter_append, List.take_append_drop]
    have el : ((ps.take i).filter isAnalysis).length + ((ps.drop i).filter isAnalysis).length = (ps.filter isAnalysis).length := by rw [← e, List.length_append]
    split
    · rename_i hb
      have : analysis d = true := by
        unfold isAnalysis directive at hb
        simp only at hb
        split at hb
        · simpa using hb
        · simp at hb
      have := hd this
      have h0 : ps.filter isAnalysis = [] := by
        rw [List.filter_eq_nil_iff]
        intro x hx
        rw [List.any_eq_false] at this
        exact this x hx
      rw [h0] at el
      simp only [List.length_nil] at el
      simp only [List.length_append, List.length_cons]
      omega
    · rw [List.length_append]; omega
  by_cases hc : ∀ s f, c ≠ .instruct s ∧ c ≠ .drop s ∧ c ≠ .dropAll f
  · rw [analyses_eq, dirs_other ps c name word ha hc, ← analyses_eq]; exact h
  · cases c with
    | instruct s =>
      simp only [changed, addDirective]
      split
      · rename_i hb
        have key : ∀ (l : List Part) (d : Str), ((l.set (l.findIdx isAnalysis) (.block (.line d))).filter isAnalysis).length ≤ (l.filter isAnalysis).length := by
          intro l d
          induction l with
          | nil => simp
          | cons q l ih =>
            rw [List.findIdx_cons]
            cases hq : isAnalysis q with
            | true =>
              simp only [cond_true, List.set_cons_zero, List.filter_cons, hq, if_true]
              split <;> simp
            | false =>
              simp only [cond_false, List.set_cons_succ, List.filter_cons, hq, Bool.false_eq_true, if_false]
              exact ih
        exact Nat.le_trans (key ps _) h
      · rename_i hb
        unfold putDirective
        split
        · exact h
        · apply put
          intro hA
          simpa [hA] using hb
    | drop s => exact sub _ (List.eraseIdx_sublist _ _)
    | dropAll f => exact sub _ List.filter_sublist
    | edit op => exact absurd (fun s f => ⟨by simp, by simp, by simp⟩) hc
    | add p place => exact absurd (fun s f => ⟨by simp, by simp, by simp⟩) hc
    | remove r => exact absurd (fun s f => ⟨by simp, by simp, by simp⟩) hc

theorem same_directive {q p : Part} (h : Part.Same q p) : directive p = directive q := by
  cases q <;> cases p <;> simp_all [Part.Same, directive]

theorem dirs_same : ∀ (qs ps : List Part), List.Forall₂ Part.Same qs ps → ps.filterMap directive = qs.filterMap directive := by
  intro qs ps h
  induction h with
  | nil => rfl
  | cons hq _ ih => rw [List.filterMap_cons, List.filterMap_cons, same_directive hq, ih]

include he ht hl in
/-- C105: a netlist with at most one analysis directive has at most one in every file that is saved. -/
theorem C105_one_analysis (ps : List Part) (hok : ∀ p ∈ ps, p.Ok w.word (NameOk numeric)) (h1 : (ps.filter isAnalysis).length ≤ 1) (cs : List Change)
    (hs : Spec.Session.Session w.word (NameOk numeric) ps cs) :
    ∃ els els' ps', openText w numeric shown (fileText ps e) = some els ∧ run w numeric shown included els (cs.map Change.op) = some els' ∧
      save w numeric shown included els' = some (fileText ps' e) ∧ (ps'.filter isAnalysis).length ≤ 1 := by
  obtain ⟨els, els', els'', ps', g1, g2, g3, g4, g5⟩ := C105_session w numeric shown e he ht included hl ps hok cs hs
  refine ⟨els, els', ps', g1, g2, g3, ?_⟩
  rw [analyses_eq, dirs_same _ _ g4, ← analyses_eq]
  clear g1 g2 g3 g4 g5 hok
  induction cs generalizing ps with
  | nil => exact h1
  | cons c cs ih => exact ih _ (analyses_changed ps c _ _ hs.1 h1) hs.2

theorem first_put (r : Str) (ps : List Part) (p : Part) (i : Nat) (hp : p.entry = none ∨ ∃ x, p.entry = some x ∧ upper x.1 ≠ upper r) : first r (putAt i p ps) = first r ps := by
  unfold first putAt
  rw [List.filterMap_append, List.find?_append, List.filterMap_cons]
  have e : ps.filterMap Part.entry = (ps.take i).filterMap Part.entry ++ (ps.drop i).filterMap Part.entry := by rw [← List.filterMap_append, List.take_append_drop]
  rw [e, List.find?_append]
  rcases hp with hp | ⟨x, hp, hx⟩
  · rw [hp]
  · rw [hp]
    simp only [List.find?_cons]
    have : (upper x.1 == upper r) = false := by simpa using hx
    rw [this]

theorem first_erase (r : Str) (ps : List Part) (p : Part → Bool) (hp : ∀ q, p q = true → q.entry = none ∨ ∃ x, q.entry = some x ∧ upper x.1 ≠ upper r) :
    first r (ps.eraseIdx (ps.findIdx p)) = first r ps := by
  unfold first
  congr 1
  induction ps with
  | nil => rfl
  | cons q ps ih =>
    rw [List.findIdx_cons]
    cases h : p q with
    | true =>
      simp only [cond_true, List.eraseIdx_zero, List.tail_cons, List.filterMap_cons]
      rcases hp q h with hp | ⟨x, hp, hx⟩
      · rw [hp]
      · rw [hp]
        have : (upper x.1 == upper r) = false := by simpa using hx
        simp only [List.find?_cons, this]
    | false =>
      simp only [cond_false, List.eraseIdx_cons_succ, List.filterMap_cons]
      cases q.entry with
      | none => exact ih
      | some x => simp only [List.find?_cons, ih]

theorem named_entry (r : Str) (q : Part) (h : named r q = true) : ∃ x, q.entry = some x ∧ upper x.1 = upper r := by
  unfold named at h
  cases he : q.entry with
  | none => rw [he] at h; simp at h
  | some x => rw [he] at h; exact ⟨x, rfl, by simpa using h⟩

theorem items_erase (ps : List Part) (p : Part → Bool) (hp : ∀ q, p q = true → q.items = []) : (ps.eraseIdx (ps.findIdx p)).flatMap Part.items = ps.flatMap Part.items := by
  induction ps with
  | nil => rfl
  | cons q ps ih =>
    rw [List.findIdx_cons]
    cases h : p q with
    | true => simp [hp q h]
    | false => simp only [cond_false, List.eraseIdx_cons_succ, List.flatMap_cons, ih]

theorem items_put (ps : List Part) (p : Part) (i : Nat) (hp : p.items = []) : (putAt i p ps).flatMap Part.items = ps.flatMap Part.items := by
  unfold putAt
  rw [List.flatMap_append, List.flatMap_cons, hp, List.nil_append, ← List.flatMap_append, List.take_append_drop]

theorem first_once (r : Str) (ps : List Part) (h : (ps.filter (named r)).length = 1) : first r (ps.eraseIdx (ps.findIdx (named r))) = none := by
  have none_of : ∀ qs : List Part, qs.filter (named r) = [] → first r qs = none := by
    intro qs hq
    rw [List.filter_eq_nil_iff] at hq
    unfold first
    rw [Option.map_eq_none_iff, List.find?_eq_none]
    intro x hx
    obtain ⟨q, hq', hqx⟩ := List.mem_filterMap.1 hx
    have := hq q hq'
    simpa [named, hqx] using this
  apply none_of
  induction ps with
  | nil => rfl
  | cons q ps ih =>
    rw [List.findIdx_cons]
    rw [List.filter_cons] at h
    cases hn : named r q with
    | true =>
      rw [hn] at h
      simp only [if_true, List.length_cons, Nat.add_eq_right, List.length_eq_zero_iff] at h
      exact h
    | false =>
      rw [hn] at h
      simp only [Bool.false_eq_true, if_false] at h
      simp only [cond_false, List.eraseIdx_cons_succ, List.filter_cons, hn, Bool.false_eq_true, if_false]
      exact ih h

theorem session_append (word : Char → Bool) (name : Str → Prop) : ∀ (cs ds : List Change) (ps : List Part), Spec.Session.Session word name ps cs →
    Spec.Session.Session word name (cs.foldl changed ps) ds → Spec.Session.Session word name ps (cs ++ ds)
  | [], _, _, _, h => h
  | _ :: cs, ds, _, h1, h2 => ⟨h1.1, session_append word name cs ds _ h1.2 h2⟩

include he ht hl in
/-- C105: removing the only component of a reference, after any session: it is not in the file that is saved, and all the other components and all parameters are, with their values. -/
theorem C105_removed (ps : List Part) (hok : ∀ p ∈ ps, p.Ok w.word (NameOk numeric)) (cs : List Change) (hs : Spec.Session.Session w.word (NameOk numeric) ps cs) (r : Str)
    (h1 : ((cs.foldl changed ps).filter (named r)).length = 1) :
    ∃ els els' els'' text, openText w numeric shown (fileText ps e) = some els ∧ run w numeric shown included els (cs.map Change.op ++ [.remove r]) = some els' ∧
      save w numeric shown included els' = some text ∧ openText w numeric shown text = some els'' ∧ getValue r els'' = none ∧
      (∀ r', upper r' ≠ upper r → getValue r' els'' = first r' (cs.foldl changed ps)) ∧ ∀ p, getParameter p els'' = paramOf p (cs.foldl changed ps) := by
  have hrem : Allowed w.word (NameOk numeric) (cs.foldl changed ps) (.remove r) := by
    show (cs.foldl changed ps).any (named r) = true
    cases hf : (cs.foldl changed ps).filter (named r) with
    | nil => rw [hf] at h1; simp at h1
    | cons q l =>
      have hm : q ∈ (cs.foldl changed ps).filter (named r) := by rw [hf]; simp
      rw [List.mem_filter] at hm
      rw [List.any_eq_true]
      exact ⟨q, hm.1, hm.2⟩
  have hsess := session_append w.word (NameOk numeric) cs [.remove r] ps hs ⟨hrem, trivial⟩
  obtain ⟨els, els', els'', ps', g1, g2, g3, g4, g5, g6, g7⟩ := C105_session w numeric shown e he ht included hl ps hok _ hsess
  simp only [List.foldl_append, List.foldl_cons, List.foldl_nil] at g7
  refine ⟨els, els', els'', _, g1, by simpa [Change.op] using g2, g3, g6, ?_, ?_, ?_⟩
  · rw [(g7 r).1]
    exact first_once r _ h1
  · intro r' hr
    rw [(g7 r').1]
    refine first_erase r' _ (named r) ?_
    intro q hq
    obtain ⟨x, hx, hxr⟩ := named_entry r q hq
    exact .inr ⟨x, hx, by rw [hxr]; exact fun h => hr h.symm⟩
  · intro p
    rw [(g7 p).2]
    unfold paramOf
    simp only [changed]
    rw [items_erase]
    intro q hq
    cases q with
    | comp l sh => rfl
    | short l k => rfl
    | params l => simp [named, Part.entry] at hq
    | block b => rfl

theorem entry_component (p : Part) (h : IsComponent p) : ∃ x, p.entry = some x ∧ p.items = [] ∧ directive p = none := by
  cases p with
  | comp l sh => exact ⟨_, rfl, rfl, rfl⟩
  | short l k => exact ⟨_, rfl, rfl, rfl⟩
  | params l => exact absurd h id
  | block b => exact absurd h id

theorem first_new (ps : List Part) (p : Part) (x : Str × Str) (i : Nat) (hx : p.entry = some x) (hn : ∀ q ∈ ps, named x.1 q = false) : first x.1 (putAt i p ps) = some x.2 := by
  unfold first putAt
  rw [List.filterMap_append, List.find?_append, List.filterMap_cons, hx]
  have h1 : ((ps.take i).filterMap Part.entry).find? (fun y => upper y.1 == upper x.1) = none := by
    rw [List.find?_eq_none]
    intro y hy
    obtain ⟨q, hq, hqy⟩ := List.mem_filterMap.1 hy
    have := hn q (List.mem_of_mem_take hq)
    simpa [named, hqy] using this
  rw [h1]
  simp

include he ht hl in
/-- C105: adding a component whose reference is not there, after any session: the saved file has it, with its value; all the other components keep theirs, and the parameters and the directives are the same. -/
theorem C105_added (ps : List Part) (hok : ∀ p ∈ ps, p.Ok w.word (NameOk numeric)) (cs : List Change) (hs : Spec.Session.Session w.word (NameOk numeric) ps cs) (p : Part)
    (place : Place) (ha : Allowed w.word (NameOk numeric) (cs.foldl changed ps) (.add p place)) (r v : Str) (hp : p.entry = some (r, v))
    (hn : ∀ q ∈ cs.foldl changed ps, named r q = false) :
    ∃ els els' els'' ps', openText w numeric shown (fileText ps e) = some els ∧ run w numeric shown included els (cs.map Change.op ++ [.add (line p) place]) = some els' ∧
      save w numeric shown included els' = some (fileText ps' e) ∧ openText w numeric shown (fileText ps' e) = some els'' ∧ getValue r els'' = some v ∧
      (∀ r', upper r' ≠ upper r → getValue r' els'' = first r' (cs.foldl changed ps)) ∧ (∀ x, getParameter x els'' = paramOf x (cs.foldl changed ps)) ∧
      ps'.filterMap directive = (cs.foldl changed ps).filterMap directive := by
  have hsess := session_append w.word (NameOk numeric) cs [.add p place] ps hs ⟨ha, trivial⟩
  obtain ⟨els, els', els'', ps', g1, g2, g3, g4, g5, g6, g7⟩ := C105_session w numeric shown e he ht included hl ps hok _ hsess
  simp only [List.foldl_append, List.foldl_cons, List.foldl_nil] at g7 g4
  obtain ⟨hpo, hc, hi⟩ := ha
  obtain ⟨x, e1, e2, e3⟩ := entry_component p hc
  rw [hp] at e1
  injection e1 with e1
  subst e1
  obtain ⟨i, hi⟩ := Option.isSome_iff_exists.1 hi
  have hch : changed (cs.foldl changed ps) (.add p place) = putAt i p (cs.foldl changed ps) := by simp only [changed, hi, Option.map_some, Option.getD_some]
  rw [hch] at g4 g7
  refine ⟨els, els', els'', ps', g1, by simpa [Change.op] using g2, g3, g6, ?_, ?_, ?_, ?_⟩
  · rw [(g7 r).1]; exact first_new _ p (r, v) i hp hn
  · intro r' hr
    rw [(g7 r').1]
    exact first_put r' _ p i (.inr ⟨_, hp, fun h => hr h.symm⟩)
  · intro x
    rw [(g7 x).2]
    unfold paramOf
    rw [items_put _ _ _ e2]
  · rw [dirs_same _ _ g4, dirs_put _ _ _ e3]

theorem directive_block (d : Str) (hk : kindOf d = some .other) : directive (.block (.line d)) = some d := by
  simp [directive, hk]

theorem has_directive (ps : List Part) (d : Str) (hk : kindOf d = some .other) : ∃ q ∈ addDirective d ps, directive q = some d := by
  unfold addDirective
  split
  · rename_i h
    refine ⟨_, ?_, directive_block d hk⟩
    rw [Bool.and_eq_true, List.any_eq_true] at h
    obtain ⟨q, hq, hqa⟩ := h.2
    have hlt : ps.findIdx isAnalysis < ps.length := List.findIdx_lt_length_of_exists ⟨q, hq, hqa⟩
    exact List.mem_set hlt _
  · unfold putDirective
    split
    · rename_i h
      rw [List.any_eq_true] at h
      obtain ⟨q, hq, hqa⟩ := h
      exact ⟨q, hq, by simpa using hqa⟩
    · exact ⟨_, by simp [putAt], directive_block d hk⟩

theorem analysis_entry (q : Part) (s : Str) (h : directive q = some s) : q.entry = none ∧ q.items = [] := by
  cases q <;> simp_all [directive, Part.entry, Part.items]

theorem set_find (ps : List Part) (p : Part) (f : Part → Bool) (g : Part → List (Str × Str)) (hg : ∀ q, f q = true → g q = []) (hp : g p = []) :
    (ps.set (ps.findIdx f) p).flatMap g = ps.flatMap g := by
  induction ps with
  | nil => rfl
  | cons q ps ih =>
    rw [List.findIdx_cons]
    cases h : f q with
    | true => simp [hg q h, hp]
    | false => simp only [cond_false, List.set_cons_succ, List.flatMap_cons, ih]

theorem first_set (r : Str) (ps : List Part) (p : Part) (f : Part → Bool) (hg : ∀ q, f q = true → q.entry = none) (hp : p.entry = none) : first r (ps.set (ps.findIdx f) p) = first r ps := by
  have h := set_find ps p f (fun q => q.entry.toList) (by intro q hq; simp [hg q hq]) (by simp [hp])
  have e : ∀ l : List Part, l.flatMap (fun q => q.entry.toList) = l.filterMap Part.entry := by
    intro l
    induction l with
    | nil => rfl
    | cons q l ih => rw [List.flatMap_cons, List.filterMap_cons, ih]; cases q.entry <;> rfl
  rw [e, e] at h
  unfold first; rw [h]

theorem items_set (ps : List Part) (p : Part) (f : Part → Bool) (hg : ∀ q, f q = true → q.items = []) (hp : p.items = []) : (ps.set (ps.findIdx f) p).flatMap Part.items = ps.flatMap Part.items := by
  induction ps with
  | nil => rfl
  | cons q ps ih =>
    rw [List.findIdx_cons]
    cases h : f q with
    | true => simp [hg q h, hp]
    | false => simp only [cond_false, List.set_cons_succ, List.flatMap_cons, ih]

theorem values_directive (ps : List Part) (d : Str) : (∀ r, first r (addDirective d ps) = first r ps) ∧ ∀ x, paramOf x (addDirective d ps) = paramOf x ps := by
  have an : ∀ q, isAnalysis q = true → q.entry = none ∧ q.items = [] := by
    intro q hq
    cases hd : directive q with
    | none => simp [isAnalysis, hd] at hq
    | some s => exact analysis_entry q s hd
  unfold addDirective
  split
  · exact ⟨fun r => first_set r ps _ _ (fun q hq => (an q hq).1) rfl, fun x => by unfold paramOf; rw [items_set ps _ _ (fun q hq => (an q hq).2) rfl]⟩
  · unfold putDirective
    split
    · exact ⟨fun _ => rfl, fun _ => rfl⟩
    · exact ⟨fun r => first_put r _ _ _ (.inl rfl), fun x => by unfold paramOf; rw [items_put _ _ _ rfl]⟩

include he ht hl in
/-- C105: adding a directive after any session: the saved file has it, and all the components and the parameters have the values they had. -/
theorem C105_instruct (ps : List Part) (hok : ∀ p ∈ ps, p.Ok w.word (NameOk numeric)) (cs : List Change) (hs : Spec.Session.Session w.word (NameOk numeric) ps cs) (s : Str)
    (hd : Directive (asLine s)) :
    ∃ els els' els'' ps', openText w numeric shown (fileText ps e) = some els ∧ run w numeric shown included els (cs.map Change.op ++ [.instruct s]) = some els' ∧
      save w numeric shown included els' = some (fileText ps' e) ∧ openText w numeric shown (fileText ps' e) = some els'' ∧ (∃ q ∈ ps', directive q = some (asLine s)) ∧
      (∀ r, getValue r els'' = first r (cs.foldl changed ps)) ∧ ∀ x, getParameter x els'' = paramOf x (cs.foldl changed ps) := by
  have hsess := session_append w.word (NameOk numeric) cs [.instruct s] ps hs ⟨hd, trivial⟩
  obtain ⟨els, els', els'', ps', g1, g2, g3, g4, g5, g6, g7⟩ := C105_session w numeric shown e he ht included hl ps hok _ hsess
  simp only [List.foldl_append, List.foldl_cons, List.foldl_nil, changed] at g7 g4
  refine ⟨els, els', els'', ps', g1, by simpa [Change.op] using g2, g3, g6, ?_, ?_, ?_⟩
  · obtain ⟨q, hq, hqd⟩ := has_directive (cs.foldl changed ps) (asLine s) hd.kind
    have : asLine s ∈ ps'.filterMap directive := by
      rw [dirs_same _ _ g4]
      exact List.mem_filterMap.2 ⟨q, hq, hqd⟩
    obtain ⟨q', h1, h2⟩ := List.mem_filterMap.1 this
    exact ⟨q', h1, h2⟩
  · intro r; rw [(g7 r).1]; exact (values_directive _ _).1 r
  · intro x; rw [(g7 x).2]; exact (values_directive _ _).2 x

theorem erase_put (ps : List Part) (p : Part) (i : Nat) (hi : i ≤ ps.length) (f : Part → Bool) (hp : f p = true) (hn : ∀ q ∈ ps, f q = false) :
    (putAt i p ps).eraseIdx ((putAt i p ps).findIdx f) = ps := by
  have : (putAt i p ps).findIdx f = i := by
    unfold putAt
    rw [List.findIdx_append]
    have : (ps.take i).findIdx f = (ps.take i).length := List.findIdx_eq_length.2 (fun q hq => hn q (List.mem_of_mem_take hq))
    rw [this]
    simp [List.findIdx_cons, hp, Nat.min_eq_left hi]
  rw [this]
  unfold putAt
  rw [List.eraseIdx_append_of_length_le (by simp)]
  simp [Nat.min_eq_left hi]

theorem undo_directive (ps : List Part) (s : Str) (hk : kindOf (asLine s) = some .other) (hn : ∀ q ∈ ps, directive q ≠ some (asLine s))
    (h1 : analysis (asLine s) = true → ∀ q ∈ ps, isAnalysis q = false) : changed (changed ps (.instruct s)) (.drop s) = ps := by
  simp only [changed]
  have hno : (analysis (asLine s) && ps.any isAnalysis) = false := by
    cases h : analysis (asLine s) with
    | false => rfl
    | true => simpa using h1 h
  have hpres : (ps.any fun p => directive p == some (asLine s)) = false := by
    rw [List.any_eq_false]
    intro q hq
    simpa using hn q hq
  unfold addDirective putDirective
  rw [hno, hpres]
  simp only [Bool.false_eq_true, if_false]
  refine erase_put ps _ _ ?_ _ (by simp [directive_block _ hk]) (by intro q hq; simpa using hn q hq)
  cases h : ps.findIdx? isBackanno with
  | none => simp
  | some i =>
    have := (find_lt h).1
    simp only [Option.getD_some]; omega

theorem add_set (ps : List Part) (d : Str) (h : (analysis d && ps.any isAnalysis) = true) : addDirective d ps = ps.set (ps.findIdx isAnalysis) (.block (.line d)) := by
  unfold addDirective; rw [h]; rfl

/-- Adding a directive twice is adding it once. -/
theorem twice (ps : List Part) (s : Str) (hk : kindOf (asLine s) = some .other) : changed (changed ps (.instruct s)) (.instruct s) = changed ps (.instruct s) := by
  simp only [changed]
  obtain ⟨q, hq, hqd⟩ := has_directive ps (asLine s) hk
  have hpres : ((addDirective (asLine s) ps).any fun p => directive p == some (asLine s)) = true := by
    rw [List.any_eq_true]; exact ⟨q, hq, by simpa using hqd⟩
  have key : ∀ (l : List Part) (p : Part), isAnalysis p = true → l.any isAnalysis = true →
      (l.set (l.findIdx isAnalysis) p).set ((l.set (l.findIdx isAnalysis) p).findIdx isAnalysis) p = l.set (l.findIdx isAnalysis) p := by
    intro l p hp
    induction l with
    | nil => simp
    | cons q l ih =>
      intro hl
      rw [List.findIdx_cons]
      cases hq : isAnalysis q with
      | true => simp [List.findIdx_cons, hp]
      | false =>
        simp only [cond_false, List.set_cons_succ]
        rw [List.findIdx_cons, hq]
        simp only [cond_false, List.set_cons_succ]
        rw [ih (by simpa [hq] using hl)]
  by_cases hA : (analysis (asLine s) && ps.any isAnalysis) = true
  · have e1 : addDirective (asLine s) ps = ps.set (ps.findIdx isAnalysis) (.block (.line (asLine s))) := by unfold addDirective; rw [hA]; rfl
    rw [Bool.and_eq_true] at hA
    have hb : isAnalysis (.block (.line (asLine s))) = true := by simp [isAnalysis, directive_block _ hk, hA.1]
    have hany : (addDirective (asLine s) ps).any isAnalysis = true := by
      rw [List.any_eq_true]; exact ⟨q, hq, by simp [isAnalysis, hqd, hA.1]⟩
    have e2 := add_set (addDirective (asLine s) ps) (asLine s) (by rw [hA.1, hany]; rfl)
    rw [e2, e1]
    exact key ps _ hb hA.2
  · generalize hqs : addDirective (asLine s) ps = qs at *
    unfold addDirective
    split
    · rename_i h
      rw [Bool.and_eq_true] at h
      have e1 : qs = putDirective (asLine s) ps := by rw [← hqs]; unfold addDirective; rw [if_neg hA]
      have hno : ∀ x ∈ ps, isAnalysis x = false := by simpa [h.1] using hA
      have hb : isAnalysis (.block (.line (asLine s))) = true := by simp [isAnalysis, directive_block _ hk, h.1]
      rw [e1]
      unfold putDirective
      split
      · rename_i hh
        exfalso
        rw [List.any_eq_true] at hh
        obtain ⟨x, hx, hxd⟩ := hh
        have hxd : directive x = some (asLine s) := by simpa using hxd
        have := hno x hx
        simp [isAnalysis, hxd, h.1] at this
      · generalize hi : (ps.findIdx? isBackanno).getD ps.length = i
        have hile : i ≤ ps.length := by
          cases hb : ps.findIdx? isBackanno with
          | none => rw [hb] at hi; simp at hi; omega
          | some j => rw [hb] at hi; have := (find_lt hb).1; simp at hi; omega
        have : (putAt i (.block (.line (asLine s))) ps).findIdx isAnalysis = i := by
          unfold putAt
          rw [List.findIdx_append]
          have : (ps.take i).findIdx isAnalysis = (ps.take i).length := List.findIdx_eq_length.2 (fun q hq => hno q (List.mem_of_mem_take hq))
          rw [this]
          simp [List.findIdx_cons, hb, Nat.min_eq_left hile]
        rw [this]
        unfold putAt
        rw [List.set_append_right _ _ (by simp)]
        simp [Nat.min_eq_left hile]
    · unfold putDirective
      rw [hpres]; rfl

theorem undo_component (ps : List Part) (p : Part) (place : Place) (r v : Str) (hp : p.entry = some (r, v)) (hpl : (placeOf ps place).isSome)
    (hn : ∀ q ∈ ps, named r q = false) : changed (changed ps (.add p place)) (.remove r) = ps := by
  obtain ⟨i, hi⟩ := Option.isSome_iff_exists.1 hpl
  simp only [changed, hi, Option.map_some, Option.getD_some]
  refine erase_put ps p i ?_ _ (by simp [named, hp]) hn
  cases place with
  | default => simp only [placeOf, Option.some.injEq] at hi; omega
  | before r' => exact Nat.le_of_lt (find_lt hi).1
  | after r' =>
    simp only [placeOf, Option.map_eq_some_iff] at hi
    obtain ⟨j, hj, rfl⟩ := hi
    exact (find_lt hj).1

/-- Changes that give a netlist back, after any session: what is saved is what would be saved without them, but for blanks. -/
theorem undone (ps : List Part) (hok : ∀ p ∈ ps, p.Ok w.word (NameOk numeric)) (cs ds ds' : List Change) (hs : Spec.Session.Session w.word (NameOk numeric) ps cs)
    (hd : Spec.Session.Session w.word (NameOk numeric) (cs.foldl changed ps) ds) (hd' : Spec.Session.Session w.word (NameOk numeric) (cs.foldl changed ps) ds')
    (hu : ds.foldl changed (cs.foldl changed ps) = ds'.foldl changed (cs.foldl changed ps)) (he : kindOf e = some .closing) (ht : Spec.NetSave.Tidy e) (hl : OneLine e) :
    ∃ els els1 els2 ps1 ps2, openText w numeric shown (fileText ps e) = some els ∧ run w numeric shown included els ((cs ++ ds).map Change.op) = some els1 ∧
      run w numeric shown included els ((cs ++ ds').map Change.op) = some els2 ∧ save w numeric shown included els1 = some (fileText ps1 e) ∧
      save w numeric shown included els2 = some (fileText ps2 e) ∧ ∃ qs, List.Forall₂ Part.Same qs ps1 ∧ List.Forall₂ Part.Same qs ps2 := by
  obtain ⟨els, els1, _, ps1, g1, g2, g3, g4, _⟩ := C105_session w numeric shown e he ht included hl ps hok _ (session_append _ _ cs ds ps hs hd)
  obtain ⟨els', els2, _, ps2, k1, k2, k3, k4, _⟩ := C105_session w numeric shown e he ht included hl ps hok _ (session_append _ _ cs ds' ps hs hd')
  rw [g1] at k1
  injection k1 with k1
  subst k1
  rw [List.foldl_append] at g4 k4
  rw [← hu] at k4
  exact ⟨els, els1, els2, ps1, ps2, g1, g2, k2, g3, k3, _, g4, k4⟩

include he ht hl in
/-- C105: adding a directive that is not there and dropping it again (an analysis: when there is no other) leaves the saved file as it was, but for blanks. -/
theorem C105_undo_directive (ps : List Part) (hok : ∀ p ∈ ps, p.Ok w.word (NameOk numeric)) (cs : List Change) (hs : Spec.Session.Session w.word (NameOk numeric) ps cs) (s : Str)
    (hd : Directive (asLine s)) (hn : ∀ q ∈ cs.foldl changed ps, directive q ≠ some (asLine s))
    (h1 : analysis (asLine s) = true → ∀ q ∈ cs.foldl changed ps, isAnalysis q = false) :
    ∃ els els1 els2 ps1 ps2, openText w numeric shown (fileText ps e) = some els ∧
      run w numeric shown included els (cs.map Change.op ++ [.instruct s, .drop s]) = some els1 ∧ run w numeric shown included els (cs.map Change.op) = some els2 ∧
      save w numeric shown included els1 = some (fileText ps1 e) ∧ save w numeric shown included els2 = some (fileText ps2 e) ∧
      ∃ qs, List.Forall₂ Part.Same qs ps1 ∧ List.Forall₂ Part.Same qs ps2 := by
  have := undone w numeric shown e included ps hok cs [.instruct s, .drop s] [] hs ⟨hd, hd, trivial⟩ trivial
    (undo_directive (cs.foldl changed ps) s hd.kind hn h1) he ht hl
  simpa [Change.op] using this

include he ht hl in
/-- C105: adding a directive twice is adding it once. -/
theorem C105_twice (ps : List Part) (hok : ∀ p ∈ ps, p.Ok w.word (NameOk numeric)) (cs : List Change) (hs : Spec.Session.Session w.word (NameOk numeric) ps cs) (s : Str)
    (hd : Directive (asLine s)) :
    ∃ els els1 els2 ps1 ps2, openText w numeric shown (fileText ps e) = some els ∧
      run w numeric shown included els (cs.map Change.op ++ [.instruct s, .instruct s]) = some els1 ∧ run w numeric shown included els (cs.map Change.op ++ [.instruct s]) = some els2 ∧
      save w numeric shown included els1 = some (fileText ps1 e) ∧ save w numeric shown included els2 = some (fileText ps2 e) ∧
      ∃ qs, List.Forall₂ Part.Same qs ps1 ∧ List.Forall₂ Part.Same qs ps2 := by
  have := undone w numeric shown e included ps hok cs [.instruct s, .instruct s] [.instruct s] hs ⟨hd, hd, trivial⟩ ⟨hd, trivial⟩
    (twice (cs.foldl changed ps) s hd.kind) he ht hl
  simpa [Change.op] using this

include he ht hl in
/-- C105: adding a component whose reference is not there and removing it again leaves the saved file as it was, but for blanks. -/
theorem C105_undo_component (ps : List Part) (hok : ∀ p ∈ ps, p.Ok w.word (NameOk numeric)) (cs : List Change) (hs : Spec.Session.Session w.word (NameOk numeric) ps cs) (p : Part)
    (place : Place) (ha : Allowed w.word (NameOk numeric) (cs.foldl changed ps) (.add p place)) (r v : Str) (hp : p.entry = some (r, v))
    (hn : ∀ q ∈ cs.foldl changed ps, named r q = false) :
    ∃ els els1 els2 ps1 ps2, openText w numeric shown (fileText ps e) = some els ∧
      run w numeric shown included els (cs.map Change.op ++ [.add (line p) place, .remove r]) = some els1 ∧ run w numeric shown included els (cs.map Change.op) = some els2 ∧
      save w numeric shown included els1 = some (fileText ps1 e) ∧ save w numeric shown included els2 = some (fileText ps2 e) ∧
      ∃ qs, List.Forall₂ Part.Same qs ps1 ∧ List.Forall₂ Part.Same qs ps2 := by
  have hr : Allowed w.word (NameOk numeric) (changed (cs.foldl changed ps) (.add p place)) (.remove r) := by
    obtain ⟨i, hi⟩ := Option.isSome_iff_exists.1 ha.2.2
    show (changed (cs.foldl changed ps) (.add p place)).any (named r) = true
    simp only [changed, hi, Option.map_some, Option.getD_some]
    rw [List.any_eq_true]
    exact ⟨p, by simp [putAt], by simp [named, hp]⟩
  have := undone w numeric shown e included ps hok cs [.add p place, .remove r] [] hs ⟨ha, hr, trivial⟩ trivial
    (undo_component (cs.foldl changed ps) p place r v hp ha.2.2 hn) he ht hl
  simpa [Change.op] using this

include he ht hl in
/-- C105: as long as no instruction is added or removed, the saved file has the directives of the netlist, in their order. -/
theorem C105_directives (ps : List Part) (hok : ∀ p ∈ ps, p.Ok w.word (NameOk numeric)) (cs : List Change) (hs : Spec.Session.Session w.word (NameOk numeric) ps cs)
    (hc : ∀ c ∈ cs, ∀ s f, c ≠ .instruct s ∧ c ≠ .drop s ∧ c ≠ .dropAll f) :
    ∃ els els' ps', openText w numeric shown (fileText ps e) = some els ∧ run w numeric shown included els (cs.map Change.op) = some els' ∧
      save w numeric shown included els' = some (fileText ps' e) ∧ ps'.filterMap directive = ps.filterMap directive := by
  obtain ⟨els, els', _, ps', g1, g2, g3, g4, g5⟩ := C105_session w numeric shown e he ht included hl ps hok cs hs
  refine ⟨els, els', ps', g1, g2, g3, ?_⟩
  rw [dirs_same _ _ g4]
  clear g1 g2 g3 g4 g5 hok
  induction cs generalizing ps with
  | nil => rfl
  | cons c cs ih =>
    rw [List.foldl_cons, ih _ hs.2 (fun c' h => hc c' (List.mem_cons_of_mem _ h))]
    exact dirs_other ps c _ _ hs.1 (hc c (by simp))

/-! ### A concrete session -/

open Props.CompLine (ascii digits str exR exR_ok)
open Props.CompShort (exE exE_ok)

theorem exEnd : kindOf ".end\n".toList = some .closing ∧ OneLine ".end\n".toList ∧ Spec.NetSave.Tidy ".end\n".toList :=
  ⟨by decide +kernel, ⟨⟨".end".toList, by decide, .inr (.inl ⟨ex_unb _ (by decide +kernel) (by decide +kernel), by decide +kernel⟩)⟩, by decide, by decide⟩,
    by unfold Spec.NetSave.Tidy; decide +kernel⟩

/-- A second resistor. -/
def exR2 : Spec.CompLine.Line := { exR with name := "2".toList }

theorem exR2_ok : (Part.comp exR2 .passive).Ok ascii.word (NameOk digits) := by
  refine ⟨?_, exR_ok.2.2, ?_, ⟨?_, ?_, ?_, ?_, ?_⟩⟩
  · have := exR_ok.1
    exact { this with name := by decide +kernel, oneLine := by decide +kernel }
  · exact ⟨by decide +kernel, exR_ok.2.1.2⟩
  all_goals (unfold Quiet; decide +kernel)

/-- Change the analysis, add a resistor, drop it, ask for a file with .backanno, set a value, put options before it, and drop all measurements. -/
def exChanges : List Change := [.instruct ".ac dec 10 1 1k".toList, .add (.comp exR2 .passive) (.after "r1".toList), .instruct ".backanno".toList,
  .edit (.set "r2".toList "10k".toList), .instruct ".options plotwinsize=0".toList, .edit .reopen, .remove "R1".toList, .drop ".backanno".toList]

theorem ex_directive (d : Str) (h1 : kindOf d = some .other) (h2 : lineCommand d ≠ some ".PARAM".toList) (h3 : strip d ++ ['\n'] = d) (t : Str) (h4 : d = t ++ ['\n'])
    (h5 : t.head? ≠ some '*') (h6 : ∀ c ∈ t, c ≠ '\n' ∧ c ≠ '\r' ∧ c ≠ ';') (h7 : Spec.LogicalLine.nest t = some Spec.LogicalLine.outside) (h8 : d.head? ≠ some '+') (h9 : d.head? ≠ some '\r') :
    Directive d := ⟨h1, h2, h3, ⟨⟨t, h4, .inr (.inl ⟨ex_unb t h5 h6, h7⟩)⟩, h8, h9⟩⟩

theorem exChanges_ok : Spec.Session.Session ascii.word (NameOk digits) exParts exChanges := by
  refine ⟨?_, ⟨exR2_ok, trivial, ?_⟩, ?_, ?_, ?_, trivial, ?_, ?_, trivial⟩
  · exact ex_directive _ (by decide +kernel) (by decide +kernel) (by decide +kernel) ".ac dec 10 1 1k".toList (by decide +kernel) (by decide +kernel) (by decide +kernel) (by decide +kernel) (by decide +kernel) (by decide +kernel)
  · decide +kernel
  · exact ex_directive _ (by decide +kernel) (by decide +kernel) (by decide +kernel) ".backanno".toList (by decide +kernel) (by decide +kernel) (by decide +kernel) (by decide +kernel) (by decide +kernel) (by decide +kernel)
  · refine ⟨by decide +kernel, .inr ⟨by decide +kernel, .inl ⟨by decide +kernel, ⟨.plain _ (by decide) (by decide +kernel), by unfold Quiet; decide +kernel, by decide +kernel⟩⟩⟩⟩
  · exact ex_directive _ (by decide +kernel) (by decide +kernel) (by decide +kernel) ".options plotwinsize=0".toList (by decide +kernel) (by decide +kernel) (by decide +kernel) (by decide +kernel) (by decide +kernel) (by decide +kernel)
  · show (List.any _ _) = true
    decide +kernel
  · exact ex_directive _ (by decide +kernel) (by decide +kernel) (by decide +kernel) ".backanno".toList (by decide +kernel) (by decide +kernel) (by decide +kernel) (by decide +kernel) (by decide +kernel) (by decide +kernel)

/-- The saved file has the new resistor with the value it was given and no R1; the new analysis is in the place of the old one, and the options are in front of where .backanno was. -/
example : ∃ els els' els'' ps', openText ascii digits str (fileText exParts ".end\n".toList) = some els ∧ run ascii digits str (fun _ => none) els (exChanges.map Change.op) = some els' ∧
    save ascii digits str (fun _ => none) els' = some (fileText ps' ".end\n".toList) ∧ openText ascii digits str (fileText ps' ".end\n".toList) = some els'' ∧
    getValue "R2".toList els'' = some "10k".toList ∧ getValue "R1".toList els'' = none ∧ getValue "E1".toList els'' = some "value={2*V(a, b)}".toList ∧
    getParameter "x".toList els'' = some "2".toList ∧ ps'.filterMap directive = [".ac dec 10 1 1k\n".toList, ".options plotwinsize=0\n".toList] := by
  obtain ⟨els, els', els'', ps', h1, h2, h3, h4, _, h6, h7⟩ := C105_session ascii digits str ".end\n".toList exEnd.1 exEnd.2.2 (fun _ => none) exEnd.2.1 exParts exParts_ok exChanges exChanges_ok
  refine ⟨els, els', els'', ps', h1, h2, h3, h6, ?_⟩
  rw [(h7 _).1, (h7 "R1".toList).1, (h7 "E1".toList).1, (h7 "x".toList).2, dirs_same _ _ h4]
  refine ⟨?_, ?_, ?_, ?_, ?_⟩ <;> decide +kernel

theorem named_same (r : Str) {q p : Part} (h : Part.Same q p) : named r p = named r q := by
  cases q <;> cases p <;> simp_all [Part.Same, named, Part.entry]
  rename_i l sh l' sh'
  obtain ⟨⟨h1, h2, h3, _⟩, h4, _⟩ := h
  simp [Spec.CompLine.Line.reference, h1, h2, h3]

theorem named_all (r : Str) : ∀ (qs ps : List Part), List.Forall₂ Part.Same qs ps → (ps.filter (named r)).length = (qs.filter (named r)).length := by
  intro qs ps h
  induction h with
  | nil => rfl
  | cons hq _ ih =>
    rw [List.filter_cons, List.filter_cons, named_same r hq]
    split
    · simp only [List.length_cons, ih]
    · exact ih

/-- A second R1. -/
def exR1 : Spec.CompLine.Line := { exR with value := "22k".toList }

theorem exR1_ok : (Part.comp exR1 .passive).Ok ascii.word (NameOk digits) := by
  refine ⟨?_, exR_ok.2.2, ?_, ⟨?_, ?_, ?_, ?_, ?_⟩⟩
  · have := exR_ok.1
    exact { this with value := .plain _ (by decide) (by decide +kernel), oneLine := by decide +kernel }
  · exact ⟨by decide +kernel, exR_ok.2.1.2⟩
  all_goals (unfold Quiet; decide +kernel)

/-- C105 (limit): add_component does not replace a component of the same reference, as its documentation says: both lines are in the saved file, and the first one is read. -/
theorem C105_limit_duplicate : ∃ els els' els'' ps', openText ascii digits str (fileText exParts ".end\n".toList) = some els ∧
    run ascii digits str (fun _ => none) els [.add (line (.comp exR1 .passive)) .default] = some els' ∧
    save ascii digits str (fun _ => none) els' = some (fileText ps' ".end\n".toList) ∧ (ps'.filter (named "R1".toList)).length = 2 ∧
    openText ascii digits str (fileText ps' ".end\n".toList) = some els'' ∧ getValue "R1".toList els'' = some "4.7k".toList := by
  obtain ⟨els, els', els'', ps', h1, h2, h3, h4, _, h6, h7⟩ := C105_session ascii digits str ".end\n".toList exEnd.1 exEnd.2.2 (fun _ => none) exEnd.2.1 exParts exParts_ok
    [.add (.comp exR1 .passive) .default] ⟨⟨exR1_ok, trivial, rfl⟩, trivial⟩
  refine ⟨els, els', els'', ps', h1, h2, h3, ?_, h6, ?_⟩
  · rw [named_all _ _ _ h4]; decide +kernel
  · rw [(h7 _).1]; decide +kernel

end Props.Session
