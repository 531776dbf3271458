import Verif.Spec.QNetlist
import Verif.Lemmas.Asc
import Verif.Lemmas.FloatUnit
import Mathlib.Tactic.SplitIfs
import Mathlib.Data.List.Forall2

/-! C69: netlists of QSPICE schematics. -/
namespace Props.QNetlist
open Model.PyStr Model.Qsch Model.QNetlist
open Spec.QNetlist

/-! ### Words of a line -/

theorem words_blank (a b : Str) : words (a ++ ' ' :: b) = words a ++ words b := Lemmas.Asc.words_blank a b

theorem words_end (a : Str) : words (a ++ ['\n']) = words a := by
  have := Lemmas.Asc.wordsAux_blank a [] [] '\n' (by decide)
  unfold words Model.Asc.words
  rw [this]; simp [Model.Asc.wordsAux]

theorem words_spaced : ∀ l : List Str, words (spaced l) = l.flatMap words
  | [] => rfl
  | [w] => by simp [spaced, join]
  | w :: x :: ws => by
    have := words_spaced (x :: ws)
    unfold spaced at *
    rw [join, words_blank, this]; rfl

theorem words_word (w : Str) (h : IsWord w) : words w = [w] := Lemmas.Asc.words_word (w := w) h

theorem words_all (ws : List Str) (h : ∀ w ∈ ws, IsWord w) : words (spaced ws) = ws := by
  rw [words_spaced]; exact Lemmas.Asc.words_all ws h

/-- The text of the parameters: each preceded by a blank. -/
def paramText (ps : List Str) : Str := ps.flatMap (fun p => ' ' :: decap p)

theorem words_params (a : Str) : ∀ ps : List Str, words (a ++ paramText ps) = words a ++ paramWords ps := by
  intro ps
  induction ps generalizing a with
  | nil => simp [paramText, paramWords]
  | cons p ps ih =>
    have e : a ++ paramText (p :: ps) = (a ++ ' ' :: decap p) ++ paramText ps := by simp [paramText]
    rw [e, ih, words_blank]
    simp [paramWords]

theorem words_line (l : List Str) (ps : List Str) : words (spaced l ++ paramText ps ++ ['\n']) = l.flatMap words ++ paramWords ps := by
  rw [words_end, words_params, words_spaced]

/-! ### Reading the drawing -/

theorem parameters_eq (ts : List Tag) (ps : List Str) (h : ts.map (fun t => unquoted t 8) = ps.map some) : parameters ts = some (paramText ps) := by
  induction ts generalizing ps with
  | nil =>
    cases ps with
    | nil => rfl
    | cons p ps => simp at h
  | cons t ts ih =>
    cases ps with
    | nil => simp at h
    | cons p ps =>
      simp only [List.map_cons, List.cons.injEq] at h
      simp only [parameters, show textAttr t 8 = some p from h.1, ih ps h.2]
      simp [paramText]

theorem shownRef_eq (ref typ : Str) (hr : ref ≠ []) (ht : typ ≠ []) : fullRef ref typ = some (shownRef ref typ) := by
  cases ref with
  | nil => exact absurd rfl hr
  | cons a r => cases typ with
    | nil => exact absurd rfl ht
    | cons b t =>
      simp only [fullRef, shownRef, List.head?_cons, Option.some.injEq]
      by_cases h : a = b <;> simp [h]

theorem kind_eq {c : Comp} {sym : Tag} {name typ : Str} (h : Kind c sym name typ) : symbolType c sym = some (name, typ) := by
  unfold symbolType
  cases h with
  | named h1 h2 h3 =>
    rename_i tt
    have hlen : 1 < sym.tokens.length := by
      unfold unquoted at h1
      by_contra hc
      rw [List.getElem?_eq_none (by omega)] at h1
      simp at h1
    rw [if_pos hlen, show textAttr sym 1 = some name from h1]
    have : getText sym "type".toList none = some typ := by
      unfold getText
      rw [show getItems sym ("type".toList ++ [':']) = [tt] from h2]
      simp only [h3]
    rw [this]
  | block h1 h2 =>
    rw [if_neg (by omega)]
    rcases h2 with h2 | ⟨tt, t, h2, h3, h4⟩
    · have : getText sym "type".toList (some "X".toList) = some "X".toList := by
        unfold getText
        rw [show getItems sym ("type".toList ++ [':']) = [] from h2]
      rw [this]; rfl
    · have : getText sym "type".toList (some "X".toList) = some t := by
        unfold getText
        rw [show getItems sym ("type".toList ++ [':']) = [tt] from h2]
        simp only [h3]
      rw [this]
      cases t with
      | nil => rfl
      | cons x t =>
        have : x ≠ 'Ø' := fun e => h4 (by rw [e]; rfl)
        simp only [Option.some.injEq, List.cons.injEq, this, false_and, imp_self, implies_true]
        rfl
  | verilog h1 h2 h3 h4 =>
    rename_i tt t
    rw [if_neg (by omega)]
    have : getText sym "type".toList (some "X".toList) = some t := by
      unfold getText
      rw [show getItems sym ("type".toList ++ [':']) = [tt] from h2]
      simp only [h3]
    rw [this]
    cases t with
    | nil => simp at h4
    | cons x t =>
      simp only [List.head?_cons, Option.some.injEq] at h4
      rw [h4]; rfl

/-- What is known of a drawn component, in the words of the code. -/
theorem draws_component (config : List (Str × List Str)) (ref : Str) (c : Comp) (sym : Tag) (d : Dev) (he : c.enabled = true)
    (h1 : children c.tag "symbol".toList = [sym]) (h : Says c sym d) (hr : ref ≠ []) (ht : d.typ ≠ []) :
    component config ref c =
      match compLine config (shownRef ref d.typ) d.name d.typ (padded d.typ c.ports)
          (if d.lib.head? = some '|' then shownRef ref d.typ ++ '•' :: d.value else d.value) (paramText d.params) d.value with
      | none => none
      | some line =>
        if d.typ = ['X'] then
          match c.sub with
          | none => some ⟨(if d.lib.head? = some '|' then embedded (shownRef ref d.typ) d.lib else []) ++ line, if d.lib.head? = some '|' ∨ d.lib = [] then none else some d.lib, none⟩
          | some k => match pinNames (getItems sym "pin".toList) with
            | none => none
            | some names => some ⟨(if d.lib.head? = some '|' then embedded (shownRef ref d.typ) d.lib else []) ++ line,
                if d.lib.head? = some '|' ∨ d.lib = [] then none else some d.lib,
                some (if d.lib.head? = some '|' then shownRef ref d.typ ++ '•' :: d.value else d.value, spaced names, k)⟩
        else some ⟨(if d.lib.head? = some '|' then embedded (shownRef ref d.typ) d.lib else []) ++ line, if d.lib.head? = some '|' ∨ d.lib = [] then none else some d.lib, none⟩ := by
  obtain ⟨hk, ⟨t0, t1, ts, h5, h6, h7⟩, h8⟩ := h
  have hlib : getText sym "library file".toList (some []) = some d.lib := by
    unfold getText
    rcases h8 with ⟨a, b⟩ | ⟨lt, a, b⟩
    · rw [show getItems sym ("library file".toList ++ [':']) = [] from a, b]
    · rw [show getItems sym ("library file".toList ++ [':']) = [lt] from a]
      simp only [b]
  have ht5 : getItems sym "text".toList = t0 :: t1 :: ts := h5
  unfold component
  rw [show getItems c.tag "symbol".toList = [sym] from h1]
  simp only [he, Bool.not_true, Bool.false_eq_true, if_false, kind_eq hk, shownRef_eq ref d.typ hr ht, ht5]
  have h6' : ((t0 :: t1 :: ts)[1]?).bind (fun t => textAttr t 8) = some d.value := h6
  rw [show (t0 :: t1 :: ts).drop 2 = ts from rfl, parameters_eq ts d.params h7, h6', hlib]
  simp only [decide_eq_true_eq]
  rfl

/-! ### Lines -/

theorem special_ne {typ : Str} (h : typ ∉ special) (s : Str) (hs : s ∈ special) : typ ≠ s := fun e => h (e ▸ hs)

/-- The model a component names: of its own when the definition is embedded in its symbol. -/
def modelOf (ref : Str) (d : Dev) : Str := if d.lib.head? = some '|' then shownRef ref d.typ ++ '•' :: d.value else d.value

/-- What a component contributes, when its line is known. -/
theorem draws_out (config : List (Str × List Str)) (ref : Str) (c : Comp) (d : Dev) (h : Draws c d) (hr : ref ≠ []) (ht : d.typ ≠ []) (hx : d.typ ≠ ['X'] ∨ c.sub = none)
    (line : Str) (hc : compLine config (shownRef ref d.typ) d.name d.typ (padded d.typ c.ports) (modelOf ref d) (paramText d.params) d.value = some line) :
    ∃ o : Out, component config ref c = some o ∧ o.text = (if d.lib.head? = some '|' then embedded (shownRef ref d.typ) d.lib else []) ++ line ∧
      o.lib = (if d.lib.head? = some '|' ∨ d.lib = [] then none else some d.lib) ∧ o.block = none := by
  obtain ⟨he, sym, h1, h⟩ := h
  have e := draws_component config ref c sym d he h1 h hr ht
  unfold modelOf at hc
  rw [hc] at e
  simp only at e
  by_cases hX : d.typ = ['X']
  · rw [if_pos hX, hx.resolve_left (fun z => z hX)] at e
    exact ⟨_, e, rfl, rfl, rfl⟩
  · rw [if_neg hX] at e
    exact ⟨_, e, rfl, rfl, rfl⟩

theorem ordinary_pad {typ : Str} (hs : typ ∉ special) (ports : List Str) : padded typ ports = ports := by
  unfold padded
  rw [if_neg, if_neg, if_neg]
  · exact special_ne hs _ (by decide)
  · exact special_ne hs _ (by decide)
  · rintro (x | x)
    · exact special_ne hs _ (by decide) x
    · exact special_ne hs _ (by decide) x

theorem ordinary_line {typ : Str} (hs : typ ∉ special) (config : List (Str × List Str)) (ref name : Str) (ports : List Str) (model params t1 : Str) :
    compLine config ref name typ ports model params t1 = some (spaced [ref, spaced ports, model] ++ params ++ ['\n']) := by
  unfold compLine
  by_cases hX : typ = ['X']
  · simp only [hX, if_true]
  · have n1 := special_ne hs "QP".toList (by decide)
    have n2 := special_ne hs "QN".toList (by decide)
    have n3 := special_ne hs "MN".toList (by decide)
    have n4 := special_ne hs "MP".toList (by decide)
    have n5 := special_ne hs ['T'] (by decide)
    have n6 := special_ne hs "JN".toList (by decide)
    have n7 := special_ne hs "JP".toList (by decide)
    have n8 := special_ne hs ['×'] (by decide)
    have n9 := special_ne hs "ZP".toList (by decide)
    have n10 := special_ne hs "ZN".toList (by decide)
    have n11 := special_ne hs ['Ø'] (by decide)
    rw [if_neg hX, if_neg (by rintro (x | x); exacts [n1 x, n2 x]), if_neg (by rintro (x | x); exacts [n3 x, n4 x]), if_neg n5,
      if_neg (by rintro (x | x); exacts [n6 x, n7 x]), if_neg n8, if_neg (by rintro (x | x); exacts [n9 x, n10 x]), if_neg n11]

theorem line_words (ref : Str) (ports rest ps : List Str) (hr : IsWord ref) (hp : ∀ n ∈ ports, IsWord n) :
    words (spaced (ref :: spaced ports :: rest) ++ paramText ps ++ ['\n']) = ref :: ports ++ rest.flatMap words ++ paramWords ps := by
  rw [words_line]
  simp only [List.flatMap_cons, words_word _ hr, words_all _ hp, List.cons_append, List.nil_append, List.append_assoc]

/-- The ordinary case: resistors, capacitors, sources, diodes, library parts and all the rest. The line of the component in the netlist says
its reference, its nets in the order of the pins, its value and its parameters; its library is asked for. -/
theorem C69_device (config : List (Str × List Str)) (ref : Str) (c : Comp) (d : Dev) (h : Draws c d) (hr : IsWord (shownRef ref d.typ)) (hr0 : ref ≠ []) (ht : d.typ ≠ [])
    (hs : d.typ ∉ special) (hl : d.lib.head? ≠ some '|') (hp : ∀ n ∈ c.ports, IsWord n) (hx : d.typ ≠ ['X'] ∨ c.sub = none) :
    ∃ o : Out, component config ref c = some o ∧ words o.text = shownRef ref d.typ :: c.ports ++ words d.value ++ paramWords d.params ∧
      o.lib = (if d.lib = [] then none else some d.lib) ∧ o.block = none := by
  have hc : compLine config (shownRef ref d.typ) d.name d.typ (padded d.typ c.ports) (modelOf ref d) (paramText d.params) d.value =
      some (spaced [shownRef ref d.typ, spaced c.ports, d.value] ++ paramText d.params ++ ['\n']) := by
    rw [ordinary_pad hs, ordinary_line hs, modelOf, if_neg hl]
  obtain ⟨o, e, e1, e2, e3⟩ := draws_out config ref c d h hr0 ht hx _ hc
  refine ⟨o, e, ?_, ?_, e3⟩
  · rw [e1, if_neg hl, List.nil_append, line_words _ _ _ _ hr hp]; simp
  · rw [e2]; simp [hl]

/-- The names of the pins of a symbol. -/
def PinsNamed (sym : Tag) (names : List Str) : Prop := (children sym "pin".toList).map (fun p => p.getAttr 8) = names.map (fun n => some (.text n))

theorem pinNames_eq : ∀ (ps : List Tag) (names : List Str), ps.map (fun p => p.getAttr 8) = names.map (fun n => some (.text n)) → pinNames ps = some names
  | [], [], _ => rfl
  | [], _ :: _, h => by simp at h
  | _ :: _, [], h => by simp at h
  | p :: ps, n :: names, h => by
    simp only [List.map_cons, List.cons.injEq] at h
    simp only [pinNames, h.1, pinNames_eq ps names h.2]

/-- A block drawn in a schematic of its own: the line is as for other components, and the definition of the block is asked for, with the
names of its pins in their order. -/
theorem C69_block (config : List (Str × List Str)) (ref : Str) (c : Comp) (sym : Tag) (d : Dev) (he : c.enabled = true) (h1 : children c.tag "symbol".toList = [sym])
    (h : Says c sym d) (hr : IsWord (shownRef ref d.typ)) (hr0 : ref ≠ []) (ht : d.typ = ['X']) (hl : d.lib.head? ≠ some '|')
    (hp : ∀ n ∈ c.ports, IsWord n) (k : Nat) (hk : c.sub = some k) (names : List Str) (hn : PinsNamed sym names) :
    ∃ o : Out, component config ref c = some o ∧ words o.text = shownRef ref d.typ :: c.ports ++ words d.value ++ paramWords d.params ∧
      o.lib = (if d.lib = [] then none else some d.lib) ∧ o.block = some (d.value, spaced names, k) := by
  have e := draws_component config ref c sym d he h1 h hr0 (by rw [ht]; simp)
  have hs : d.typ ∉ special := by rw [ht]; decide
  rw [ordinary_pad hs, ordinary_line hs, hk] at e
  rw [show pinNames (getItems sym "pin".toList) = some names from pinNames_eq _ _ hn] at e
  simp only [if_pos ht, if_neg hl] at e
  refine ⟨_, e, ?_, ?_, rfl⟩
  · show words ([] ++ _) = _
    rw [List.nil_append, line_words _ _ _ _ hr hp]; simp
  · simp [hl]

/-! ### Definitions embedded in a symbol -/

/-- A component with an embedded definition names a model that has its reference in front; so no two components share one. -/
theorem C69_private (config : List (Str × List Str)) (ref : Str) (c : Comp) (d : Dev) (h : Draws c d) (hr : IsWord (shownRef ref d.typ)) (hr0 : ref ≠ []) (ht : d.typ ≠ [])
    (hs : d.typ ∉ special) (hl : d.lib.head? = some '|') (hp : ∀ n ∈ c.ports, IsWord n) (hx : d.typ ≠ ['X'] ∨ c.sub = none) (hv : IsWord d.value) :
    ∃ (o : Out) (line : Str), component config ref c = some o ∧ o.text = embedded (shownRef ref d.typ) d.lib ++ line ∧
      words line = shownRef ref d.typ :: c.ports ++ [shownRef ref d.typ ++ '•' :: d.value] ++ paramWords d.params ∧ o.lib = none ∧ o.block = none := by
  have hc : compLine config (shownRef ref d.typ) d.name d.typ (padded d.typ c.ports) (modelOf ref d) (paramText d.params) d.value =
      some (spaced [shownRef ref d.typ, spaced c.ports, shownRef ref d.typ ++ '•' :: d.value] ++ paramText d.params ++ ['\n']) := by
    rw [ordinary_pad hs, ordinary_line hs, modelOf, if_pos hl]
  obtain ⟨o, e, e1, e2, e3⟩ := draws_out config ref c d h hr0 ht hx _ hc
  have hm : IsWord (shownRef ref d.typ ++ '•' :: d.value) := by
    refine ⟨by simp, ?_⟩
    intro x hx
    rw [List.mem_append, List.mem_cons] at hx
    rcases hx with hx | hx | hx
    · exact hr.2 x hx
    · rw [hx]; decide
    · exact hv.2 x hx
  refine ⟨o, _, e, by rw [e1, if_pos hl], ?_, ?_, e3⟩
  · rw [line_words _ _ _ _ hr hp]; simp [words_word _ hm]
  · rw [e2]; simp [hl]

/-- The embedded definition is written in front of the line, under the name the line uses: `|.model NAME args` as
`.model REF•NAME args`, and the same for `.subckt`; `\\n` in the file is a line break. -/
theorem C69_definition (ref kw name args : Str) (hk : kw = "model".toList ∨ kw = "subckt".toList) (hn : name ≠ []) (hw : ∀ c ∈ name, Model.ParamRegex.wordChar c = true) :
    embedded ref ("|.".toList ++ kw ++ ' ' :: (name ++ ' ' :: args)) = breakLines ('.' :: (kw ++ ' ' :: (ref ++ '•' :: (name ++ ' ' :: args)))) ++ ['\n'] := by
  have hr : renamed ref kw ("|.".toList ++ kw ++ ' ' :: (name ++ ' ' :: args)) = some ('.' :: (kw ++ ' ' :: (ref ++ '•' :: (name ++ ' ' :: args)))) := by
    unfold renamed
    have e : "|.".toList ++ kw ++ ' ' :: (name ++ ' ' :: args) = ('|' :: '.' :: (kw ++ [' '])) ++ (name ++ ' ' :: args) := by simp
    rw [e]
    simp only
    rw [if_pos (by rw [List.isPrefixOf_iff_prefix]; exact List.prefix_append _ _), List.drop_left]
    have hsp : Model.ParamRegex.wordChar ' ' = false := by decide
    rw [List.takeWhile_append_of_pos hw, List.dropWhile_append_of_pos hw]
    simp only [List.takeWhile_cons, List.dropWhile_cons, hsp, Bool.false_eq_true, if_false, List.append_nil]
    cases name with
    | nil => exact absurd rfl hn
    | cons x n => rfl
  have other : ∀ (k1 k2 : Str) (x : Str), k1 = "model".toList ∧ k2 = "subckt".toList → renamed ref k1 ("|.".toList ++ k2 ++ ' ' :: x) = none := by
    rintro _ _ x ⟨rfl, rfl⟩
    unfold renamed
    rw [if_neg (by simp [List.isPrefixOf])]
  unfold embedded
  rcases hk with rfl | rfl
  · rw [hr]; rfl
  · rw [hr, other _ _ _ ⟨rfl, rfl⟩]; rfl

/-- Two components with different references name different models. -/
theorem C69_private_names (r1 r2 v : Str) (h : r1 ++ '•' :: v = r2 ++ '•' :: v) : r1 = r2 := List.append_cancel_right h

/-! ### Parameters -/

/-- `name=<value>` loses its angle brackets; what is behind the last `>` stays. -/
theorem C69_brackets (name value rest : Str) (hn : name ≠ []) (hw : ∀ c ∈ name, Model.ParamRegex.wordChar c = true) (hr : '>' ∉ rest) :
    decap (name ++ "=<".toList ++ value ++ '>' :: rest) = name ++ '=' :: (value ++ rest) := by
  induction name with
  | nil => exact absurd rfl hn
  | cons c n ih =>
    have hc := hw c (by simp)
    have hd : Model.ParamRegex.wordChar '=' = false := by decide
    have up : upToLast (value ++ '>' :: rest) = some (value, rest) := by
      have hall : ∀ x ∈ rest.reverse, decide (x ≠ '>') = true := by
        intro x hx
        simp only [ne_eq, decide_not, Bool.not_eq_true', decide_eq_false_iff_not]
        intro e; subst e; exact hr (List.mem_reverse.mp hx)
      unfold upToLast
      rw [show (value ++ '>' :: rest).reverse = rest.reverse ++ '>' :: value.reverse by simp, List.dropWhile_append_of_pos hall,
        List.takeWhile_append_of_pos hall]
      simp
    cases n with
    | nil =>
      show decap (c :: '=' :: '<' :: (value ++ '>' :: rest)) = _
      rw [decap, if_pos hc]
      simp only [up, List.cons_append, List.nil_append]
    | cons x n =>
      have hx : x ≠ '=' := fun e => by
        have := hw x (by simp)
        rw [e, hd] at this; exact absurd this (by simp)
      have := ih (by simp) (fun y hy => hw y (List.mem_cons_of_mem _ hy))
      show decap (c :: x :: (n ++ "=<".toList ++ value ++ '>' :: rest)) = _
      rw [decap, if_pos hc]
      · have e : x :: (n ++ "=<".toList ++ value ++ '>' :: rest) = (x :: n) ++ "=<".toList ++ value ++ '>' :: rest := rfl
        rw [e, this]; rfl
      · intro r heq; simp only [List.cons.injEq] at heq; exact hx heq.1

/-- A parameter that is not written like this is left as it is. -/
theorem C69_no_brackets (s : Str) (h : ¬ ['=', '<'] <:+: s) : decap s = s := by
  induction s with
  | nil => rfl
  | cons c s ih =>
    have hs : ¬ ['=', '<'] <:+: s := fun x => h (x.trans (List.suffix_cons c s).isInfix)
    unfold decap
    rw [ih hs]
    by_cases hc : Model.ParamRegex.wordChar c = true
    · rw [if_pos hc]
      split
      · rename_i r
        exact absurd (show ['=', '<'] <:+: '=' :: '<' :: r from ⟨[], r, rfl⟩) hs
      · rfl
    · rw [if_neg hc]

/-! ### Transistors and other components with lines of their own -/

section Kinds
variable (config : List (Str × List Str)) (ref : Str) (c : Comp) (d : Dev) (h : Draws c d) (hr : IsWord (shownRef ref d.typ)) (hr0 : ref ≠ [])
  (hl : d.lib.head? ≠ some '|') (hp : ∀ n ∈ c.ports, IsWord n)
include h hr hr0 hl hp

/-- Lines that say the reference, nets, and more. -/
theorem kind_line (hd : d.typ ≠ []) (hX : d.typ ≠ ['X']) (ports rest : List Str) (hq : ∀ n ∈ ports, IsWord n)
    (hc : compLine config (shownRef ref d.typ) d.name d.typ (padded d.typ c.ports) d.value (paramText d.params) d.value =
      some (spaced (shownRef ref d.typ :: spaced ports :: rest) ++ paramText d.params ++ ['\n'])) :
    ∃ o : Out, component config ref c = some o ∧ words o.text = shownRef ref d.typ :: ports ++ rest.flatMap words ++ paramWords d.params ∧
      o.lib = (if d.lib = [] then none else some d.lib) ∧ o.block = none := by
  obtain ⟨o, e, e1, e2, e3⟩ := draws_out config ref c d h hr0 hd (Or.inl hX) _ (by rw [modelOf, if_neg hl]; exact hc)
  refine ⟨o, e, ?_, ?_, e3⟩
  · rw [e1, if_neg hl, List.nil_append, line_words _ _ _ _ hr hq]
  · rw [e2]; simp [hl]

/-- A field effect transistor drawn with three pins has its bulk at the source, the third pin; one drawn with four is written as drawn; the
symbols NMOSB and PMOSB are called NMOS and PMOS. -/
theorem C69_mos (ht : d.typ = "MN".toList ∨ d.typ = "MP".toList) (hn : IsWord d.name) :
    ∃ o : Out, component config ref c = some o ∧
      words o.text = shownRef ref d.typ :: (c.ports ++ (if c.ports.length = 3 then c.ports.drop 2 else [])) ++ words d.value ++
        [if d.name = "NMOSB".toList then "NMOS".toList else if d.name = "PMOSB".toList then "PMOS".toList else d.name] ++ paramWords d.params := by
  have hX : d.typ ≠ ['X'] := by rcases ht with e | e <;> rw [e] <;> decide
  have hd : d.typ ≠ [] := by rcases ht with e | e <;> rw [e] <;> decide
  have hpad : padded d.typ c.ports = c.ports := by rcases ht with e | e <;> rw [e] <;> rfl
  have hsym : (if d.name = "NMOSB".toList ∨ d.name = "PMOSB".toList then d.name.take 4 else d.name) =
      (if d.name = "NMOSB".toList then "NMOS".toList else if d.name = "PMOSB".toList then "PMOS".toList else d.name) := by
    by_cases e1 : d.name = "NMOSB".toList
    · rw [e1]; rfl
    · by_cases e2 : d.name = "PMOSB".toList
      · rw [e2]; rfl
      · rw [if_neg (by rintro (x | x); exacts [e1 x, e2 x]), if_neg e1, if_neg e2]
  have hq1 : ∀ n ∈ c.ports ++ (if c.ports.length = 3 then c.ports.drop 2 else []), IsWord n := by
    intro n hn
    rw [List.mem_append] at hn
    rcases hn with hn | hn
    · exact hp n hn
    · by_cases e : c.ports.length = 3
      · rw [if_pos e] at hn; exact hp n (List.mem_of_mem_drop hn)
      · rw [if_neg e] at hn; simp at hn
  have hw : IsWord (if d.name = "NMOSB".toList then "NMOS".toList else if d.name = "PMOSB".toList then "PMOS".toList else d.name) := by
    split_ifs
    · exact ⟨by decide, by decide⟩
    · exact ⟨by decide, by decide⟩
    · exact hn
  have hline : compLine config (shownRef ref d.typ) d.name d.typ (padded d.typ c.ports) d.value (paramText d.params) d.value =
      some (spaced (shownRef ref d.typ :: spaced (c.ports ++ (if c.ports.length = 3 then c.ports.drop 2 else [])) ::
        [d.value, if d.name = "NMOSB".toList then "NMOS".toList else if d.name = "PMOSB".toList then "PMOS".toList else d.name]) ++ paramText d.params ++ ['\n']) := by
    unfold compLine
    rw [if_neg hX, if_neg (by rcases ht with e | e <;> rw [e] <;> decide), if_pos ht, hsym, hpad]
    rcases hcp : c.ports with _ | ⟨a, _ | ⟨b, _ | ⟨x, _ | ⟨y, l⟩⟩⟩⟩
    · rfl
    · rfl
    · rfl
    · simp only [List.length_cons, List.length_nil, if_true, List.drop, spaced, join, List.cons_append, List.nil_append, List.append_assoc]
    · have : (a :: b :: x :: y :: l).length ≠ 3 := by simp
      simp only [if_neg this, List.append_nil]
  obtain ⟨o, e, e1, _⟩ := kind_line config ref c d h hr hr0 hl hp hd hX _ _ hq1 hline
  refine ⟨o, e, ?_⟩
  rw [e1]
  simp only [List.flatMap_cons, List.flatMap_nil, words_word _ hw, List.append_nil, List.append_assoc, List.cons_append, List.nil_append]

/-- A bipolar transistor has its substrate at node 0 ... -/
theorem C69_bjt (ht : d.typ = "QN".toList ∨ d.typ = "QP".toList) (hn : IsWord d.name)
    (h3 : d.name ≠ "NPNS".toList ∧ d.name ≠ "PNPS".toList ∧ d.name ≠ "LPNP".toList) :
    ∃ o : Out, component config ref c = some o ∧
      words o.text = shownRef ref d.typ :: c.ports ++ ["[0]".toList] ++ words d.value ++ [d.name] ++ paramWords d.params := by
  have hX : d.typ ≠ ['X'] := by rcases ht with e | e <;> rw [e] <;> decide
  have hd : d.typ ≠ [] := by rcases ht with e | e <;> rw [e] <;> decide
  have hpad : padded d.typ c.ports = c.ports := by rcases ht with e | e <;> rw [e] <;> rfl
  have hline : compLine config (shownRef ref d.typ) d.name d.typ (padded d.typ c.ports) d.value (paramText d.params) d.value =
      some (spaced (shownRef ref d.typ :: spaced c.ports :: ["[0]".toList, d.value, d.name]) ++ paramText d.params ++ ['\n']) := by
    unfold compLine
    rw [if_neg hX, if_pos ht.symm, if_neg (by rintro (x | x | x); exacts [h3.1 x, h3.2.1 x, h3.2.2 x]), hpad]
  obtain ⟨o, e, e1, _⟩ := kind_line config ref c d h hr hr0 hl hp hd hX _ _ hp hline
  refine ⟨o, e, ?_⟩
  rw [e1]
  simp only [List.flatMap_cons, List.flatMap_nil, words_word _ hn, words_word "[0]".toList ⟨by decide, by decide⟩, List.append_nil, List.append_assoc, List.cons_append,
    List.nil_append]

/-- ... unless its symbol has a substrate pin, the fourth, whose net is in brackets. -/
theorem C69_bjt_substrate (ht : d.typ = "QN".toList ∨ d.typ = "QP".toList) (h3 : d.name = "NPNS".toList ∨ d.name = "PNPS".toList ∨ d.name = "LPNP".toList)
    (n0 n1 n2 n3 : Str) (h4 : c.ports = [n0, n1, n2, n3]) :
    ∃ o : Out, component config ref c = some o ∧
      words o.text = [shownRef ref d.typ, n0, n1, n2, '[' :: n3 ++ [']']] ++ words d.value ++ [if d.name = "NPNS".toList then "NPN".toList else "PNP".toList] ++ paramWords d.params := by
  have hX : d.typ ≠ ['X'] := by rcases ht with e | e <;> rw [e] <;> decide
  have hd : d.typ ≠ [] := by rcases ht with e | e <;> rw [e] <;> decide
  have hpad : padded d.typ c.ports = c.ports := by rcases ht with e | e <;> rw [e] <;> rfl
  have hpol : (if contains "PNP".toList d.name then "PNP".toList else "NPN".toList) = (if d.name = "NPNS".toList then "NPN".toList else "PNP".toList) := by
    rcases h3 with e | e | e <;> rw [e] <;> decide
  have hline : compLine config (shownRef ref d.typ) d.name d.typ (padded d.typ c.ports) d.value (paramText d.params) d.value =
      some (spaced (shownRef ref d.typ :: spaced [n0, n1, n2, '[' :: n3 ++ [']']] :: [d.value, if d.name = "NPNS".toList then "NPN".toList else "PNP".toList]) ++
        paramText d.params ++ ['\n']) := by
    unfold compLine
    rw [if_neg hX, if_pos ht.symm, if_pos h3, hpad, h4, ← hpol]
    rfl
  have hq : ∀ n ∈ [n0, n1, n2, '[' :: n3 ++ [']']], IsWord n := by
    rw [h4] at hp
    intro n hn
    simp only [List.mem_cons, List.not_mem_nil, or_false] at hn
    rcases hn with e | e | e | e
    · exact hp n (by simp [e])
    · exact hp n (by simp [e])
    · exact hp n (by simp [e])
    · have := hp n3 (by simp)
      rw [e]
      refine ⟨by simp, ?_⟩
      intro x hx
      simp only [List.cons_append, List.mem_cons, List.mem_append, List.not_mem_nil, or_false] at hx
      rcases hx with hx | hx | hx
      · rw [hx]; decide
      · exact this.2 x hx
      · rw [hx]; decide
  obtain ⟨o, e, e1, _⟩ := kind_line config ref c d h hr hr0 hl hp hd hX _ _ hq hline
  refine ⟨o, e, ?_⟩
  rw [e1]
  rcases h3 with e | e | e <;> rw [e] <;> simp [words_word ['N', 'P', 'N'] ⟨by decide, by decide⟩, words_word ['P', 'N', 'P'] ⟨by decide, by decide⟩]

/-- Junction field effect transistors and MESFETs: the polarity follows the model; `Pwr` in front of it is dropped for the former. -/
theorem C69_jfet (ht : d.typ = "JN".toList ∨ d.typ = "JP".toList ∨ d.typ = "ZN".toList ∨ d.typ = "ZP".toList) (name : Str) (hn : IsWord name)
    (hname : d.name = name ∧ ¬ "Pwr".toList <+: name ∨ d.name = "Pwr".toList ++ name ∧ (d.typ = "JN".toList ∨ d.typ = "JP".toList)) :
    ∃ o : Out, component config ref c = some o ∧
      words o.text = shownRef ref d.typ :: c.ports ++ words d.value ++ [name] ++ paramWords d.params := by
  have hX : d.typ ≠ ['X'] := by rcases ht with e | e | e | e <;> rw [e] <;> decide
  have hd : d.typ ≠ [] := by rcases ht with e | e | e | e <;> rw [e] <;> decide
  have hpad : padded d.typ c.ports = c.ports := by rcases ht with e | e | e | e <;> rw [e] <;> rfl
  have hline : compLine config (shownRef ref d.typ) d.name d.typ (padded d.typ c.ports) d.value (paramText d.params) d.value =
      some (spaced (shownRef ref d.typ :: spaced c.ports :: [d.value, name]) ++ paramText d.params ++ ['\n']) := by
    unfold compLine
    rw [if_neg hX, if_neg (by rcases ht with e | e | e | e <;> rw [e] <;> decide), if_neg (by rcases ht with e | e | e | e <;> rw [e] <;> decide),
      if_neg (by rcases ht with e | e | e | e <;> rw [e] <;> decide), hpad]
    by_cases hj : d.typ = "JN".toList ∨ d.typ = "JP".toList
    · rw [if_pos hj]
      rcases hname with ⟨e1, e2⟩ | ⟨e1, e2⟩
      · rw [if_neg (by rw [List.isPrefixOf_iff_prefix, e1]; exact e2), e1]
      · rw [if_pos (by rw [List.isPrefixOf_iff_prefix, e1]; exact List.prefix_append _ _), e1]; rfl
    · rw [if_neg hj]
      have hz : d.typ = "ZP".toList ∨ d.typ = "ZN".toList := by
        rcases ht with e | e | e | e
        · exact absurd (Or.inl e) hj
        · exact absurd (Or.inr e) hj
        · exact Or.inr e
        · exact Or.inl e
      rw [if_neg (by rcases hz with e | e <;> rw [e] <;> decide), if_pos hz]
      rcases hname with ⟨e1, _⟩ | ⟨_, e2⟩
      · rw [e1]
      · exact absurd e2 hj
  obtain ⟨o, e, e1, _⟩ := kind_line config ref c d h hr hr0 hl hp hd hX _ _ hp hline
  refine ⟨o, e, ?_⟩
  rw [e1]
  simp [words_word _ hn]

/-- A transmission line: its value loses angle brackets like a parameter. -/
theorem C69_line (ht : d.typ = ['T']) :
    ∃ o : Out, component config ref c = some o ∧ words o.text = shownRef ref d.typ :: c.ports ++ words (decap d.value) ++ paramWords d.params := by
  have hline : compLine config (shownRef ref d.typ) d.name d.typ (padded d.typ c.ports) d.value (paramText d.params) d.value =
      some (spaced (shownRef ref d.typ :: spaced c.ports :: [decap d.value]) ++ paramText d.params ++ ['\n']) := by
    rw [ht]; rfl
  obtain ⟨o, e, e1, _⟩ := kind_line config ref c d h hr hr0 hl hp (by rw [ht]; decide) (by rw [ht]; decide) _ _ hp hline
  exact ⟨o, e, by rw [e1]; simp⟩

/-- The nets a behavioural component must have. -/
def behavioural : List (Str × Nat) := [(['¥'], 16), (['Ã'], 16), (['€'], 32), (['£'], 64)]

/-- Behavioural components have 16, 32 or 64 nets: the missing ones are ¥. -/
theorem C69_behavioural (n : Nat) (ht : (d.typ, n) ∈ behavioural) :
    ∃ o : Out, component config ref c = some o ∧
      words o.text = shownRef ref d.typ :: (c.ports ++ List.replicate (n - c.ports.length) ['¥']) ++ words d.value ++ paramWords d.params := by
  have hq : ∀ x ∈ c.ports ++ List.replicate (n - c.ports.length) ['¥'], IsWord x := by
    intro x hx
    rw [List.mem_append] at hx
    rcases hx with hx | hx
    · exact hp x hx
    · rw [List.eq_of_mem_replicate hx]; exact ⟨by decide, by decide⟩
  have hb : d.typ ≠ [] ∧ d.typ ≠ ['X'] ∧ compLine config (shownRef ref d.typ) d.name d.typ (padded d.typ c.ports) d.value (paramText d.params) d.value =
      some (spaced (shownRef ref d.typ :: spaced (c.ports ++ List.replicate (n - c.ports.length) ['¥']) :: [d.value]) ++ paramText d.params ++ ['\n']) := by
    simp only [behavioural, List.mem_cons, Prod.mk.injEq, List.not_mem_nil, or_false] at ht
    rcases ht with ⟨e, rfl⟩ | ⟨e, rfl⟩ | ⟨e, rfl⟩ | ⟨e, rfl⟩ <;> rw [e] <;> exact ⟨by decide, by decide, rfl⟩
  obtain ⟨o, e, e1, _⟩ := kind_line config ref c d h hr hr0 hl hp hb.1 hb.2.1 _ _ hq hb.2.2
  exact ⟨o, e, by rw [e1]; simp⟩

/-- The square symbol: the nets are written between quotes of their own. -/
theorem C69_times (ht : d.typ = ['×']) :
    ∃ o : Out, component config ref c = some o ∧
      o.text = shownRef ref d.typ ++ " «".toList ++ spaced c.ports ++ "» ".toList ++ d.value ++ paramText d.params ++ ['\n'] := by
  have hc : compLine config (shownRef ref d.typ) d.name d.typ (padded d.typ c.ports) (modelOf ref d) (paramText d.params) d.value =
      some (shownRef ref d.typ ++ " «".toList ++ spaced c.ports ++ "» ".toList ++ d.value ++ paramText d.params ++ ['\n']) := by
    rw [modelOf, if_neg hl]
    have : ∀ r : Str, compLine config r d.name d.typ (padded d.typ c.ports) d.value (paramText d.params) d.value =
        some (spaced [r, '«' :: (spaced c.ports ++ ['»']), d.value] ++ paramText d.params ++ ['\n']) := by
      intro r; rw [ht]; rfl
    rw [this]
    simp [spaced, join]
  obtain ⟨o, e, e1, _⟩ := draws_out config ref c d h hr0 (by rw [ht]; decide) (Or.inl (by rw [ht]; decide)) _ hc
  exact ⟨o, e, by rw [e1, if_neg hl, List.nil_append]⟩

end Kinds

/-! ### Verilog blocks -/

/-- The pins with one of these directions: each net with the type of its pin. -/
def grouped (dirs : List Str) (ports : List Str) (pins : List (Str × Str)) : List Str :=
  (ports.zip pins).filterMap (fun x => if lower x.2.1 ∈ dirs then some (x.1 ++ '´' :: x.2.2) else none)

theorem grouped_cons (dirs : List Str) (p dir t : Str) (ports : List Str) (pins : List (Str × Str)) :
    grouped dirs (p :: ports) ((dir, t) :: pins) = if lower dir ∈ dirs then (p ++ '´' :: t) :: grouped dirs ports pins else grouped dirs ports pins := by
  unfold grouped
  rw [List.zip_cons_cons, List.filterMap_cons]
  by_cases hm : lower dir ∈ dirs <;> simp [hm]

theorem verilogPin_eq (acc : Str × Str × Str) (p dir t : Str) (h1 : ',' ∉ dir) (h2 : ',' ∉ t) :
    verilogPin acc p (dir ++ ',' :: t) =
      if lower dir ∈ ["in".toList, "input".toList] then (acc.1 ++ ' ' :: (p ++ '´' :: t), acc.2.1, acc.2.2)
      else if lower dir ∈ ["out".toList, "output".toList] then (acc.1, acc.2.1 ++ ' ' :: (p ++ '´' :: t), acc.2.2)
      else if lower dir ∈ ["common".toList, "inout".toList] then (acc.1, acc.2.1, acc.2.2 ++ ' ' :: (p ++ '´' :: t))
      else acc := by
  have hsp : splitOn ',' (dir ++ ',' :: t) = [dir, t] := by
    rw [Lemmas.PyStr.splitOn_cons ',' dir t (fun c hc e => h1 (e ▸ hc)), Lemmas.PyStr.splitOn_clean ',' t (fun c hc e => h2 (e ▸ hc))]
  unfold verilogPin
  rw [hsp]
  simp only [List.mem_cons, List.not_mem_nil, or_false]

theorem dirs_apart (x : Str) : (x ∈ ["in".toList, "input".toList] → x ∉ ["out".toList, "output".toList] ∧ x ∉ ["common".toList, "inout".toList]) ∧
    (x ∈ ["out".toList, "output".toList] → x ∉ ["common".toList, "inout".toList]) := by
  constructor
  · intro h
    rcases List.mem_cons.mp h with e | h
    · rw [e]; decide
    · rw [List.mem_singleton.mp h]; decide
  · intro h
    rcases List.mem_cons.mp h with e | h
    · rw [e]; decide
    · rw [List.mem_singleton.mp h]; decide

/-- A blank in front of each word -/
def led (ws : List Str) : Str := ws.flatMap (fun w => ' ' :: w)

theorem pins_none (acc : Str × Str × Str) (cs : List Str) : verilogPins acc [] cs = acc := by cases cs <;> rfl
theorem pins_stop (acc : Str × Str × Str) (ps : List Str) : verilogPins acc ps [] = acc := by cases ps <;> rfl
theorem pins_cons (acc : Str × Str × Str) (p c : Str) (ps cs : List Str) : verilogPins acc (p :: ps) (c :: cs) = verilogPins (verilogPin acc p c) ps cs := rfl
theorem led_nil : led [] = [] := rfl
theorem grouped_none (dirs : List Str) (ps : List (Str × Str)) : grouped dirs [] ps = [] := rfl
theorem grouped_stop (dirs : List Str) (ps : List Str) : grouped dirs ps [] = [] := by cases ps <;> rfl

theorem verilogPins_eq (ports : List Str) : ∀ (pins : List (Str × Str)) (acc : Str × Str × Str), (∀ g ∈ pins, ',' ∉ g.1 ∧ ',' ∉ g.2) →
    verilogPins acc ports (pins.map (fun g => g.1 ++ ',' :: g.2)) =
      (acc.1 ++ led (grouped ["in".toList, "input".toList] ports pins), acc.2.1 ++ led (grouped ["out".toList, "output".toList] ports pins),
       acc.2.2 ++ led (grouped ["common".toList, "inout".toList] ports pins)) := by
  induction ports with
  | nil => intro pins acc _; simp only [pins_none, grouped_none, led_nil, List.append_nil]
  | cons p ports ih =>
    intro pins acc h
    rcases pins with _ | ⟨⟨dir, t⟩, pins⟩
    · simp only [List.map_nil, pins_stop, grouped_stop, led_nil, List.append_nil]
    · have hg := h (dir, t) (by simp)
      rw [List.map_cons, pins_cons, ih pins _ (fun g hg => h g (List.mem_cons_of_mem _ hg)), grouped_cons, grouped_cons, grouped_cons,
        verilogPin_eq acc p dir t hg.1 hg.2]
      generalize hD : ["in".toList, "input".toList] = D1
      generalize hE : ["out".toList, "output".toList] = D2
      generalize hF : ["common".toList, "inout".toList] = D3
      have ap := dirs_apart (lower dir)
      rw [hD, hE, hF] at ap
      by_cases h1 : lower dir ∈ D1
      · obtain ⟨h2, h3⟩ := ap.1 h1
        simp only [if_pos h1, if_neg h2, if_neg h3, led, List.flatMap_cons, List.append_assoc, List.cons_append]
      · by_cases h2 : lower dir ∈ D2
        · have h3 := ap.2 h2
          simp only [if_neg h1, if_pos h2, if_neg h3, led, List.flatMap_cons, List.append_assoc, List.cons_append]
        · by_cases h3 : lower dir ∈ D3
          · simp only [if_neg h1, if_neg h2, if_pos h3, led, List.flatMap_cons, List.append_assoc, List.cons_append]
          · simp only [if_neg h1, if_neg h2, if_neg h3]

theorem spaced_cons (w : Str) (ws : List Str) : spaced (w :: ws) = w ++ ws.flatMap (fun w => ' ' :: w) := by
  induction ws generalizing w with
  | nil => simp [spaced, join]
  | cons x ws ih =>
    show w ++ ' ' :: spaced (x :: ws) = _
    rw [ih]; simp

/-- Joining with a blank in front of each and stripping is joining with blanks between. -/
theorem strip_items (ws : List Str) (h : ∀ w ∈ ws, IsWord w) : strip (led ws) = spaced ws := by
  unfold led
  cases ws with
  | nil => rfl
  | cons w ws =>
    have e : (w :: ws).flatMap (fun w => ' ' :: w) = ' ' :: spaced (w :: ws) := by rw [spaced_cons]; simp
    rw [e]
    have hs : strip (' ' :: spaced (w :: ws)) = strip (spaced (w :: ws)) := rfl
    rw [hs]
    have last : ∀ (ws : List Str) (w : Str), (∀ x ∈ w :: ws, IsWord x) → ∀ c ∈ (spaced (w :: ws)).getLast?, isSpace c = false := by
      intro ws
      induction ws with
      | nil =>
        intro w h c hc
        have : spaced [w] = w := by simp [spaced, join]
        rw [this] at hc
        exact (h w (by simp)).2 c (List.mem_of_getLast? hc)
      | cons x ws ih =>
        intro w h c hc
        have e : spaced (w :: x :: ws) = w ++ ' ' :: spaced (x :: ws) := rfl
        have ne : spaced (x :: ws) ≠ [] := by
          rw [spaced_cons]; intro hh
          exact (h x (by simp)).1 (List.append_eq_nil_iff.mp hh).1
        rw [e, List.getLast?_append, List.getLast?_cons] at hc
        have : (spaced (x :: ws)).getLast?.getD ' ' = c := by
          simpa using hc
        refine ih x (fun y hy => h y (List.mem_cons_of_mem _ hy)) c ?_
        rw [List.getLast?_eq_some_getLast ne] at this ⊢
        simpa using this
    refine Lemmas.FloatUnit.strip_visible ?_ (last ws w h)
    intro c hc
    rw [spaced_cons] at hc
    obtain ⟨h1, h2⟩ := h w (by simp)
    cases w with
    | nil => exact absurd rfl h1
    | cons a w =>
      simp at hc
      rw [← hc]; exact h2 a (by simp)

/-- A Verilog block: inputs, outputs and common pins in three groups, each in the order of the pins, with their types. -/
theorem C69_verilog (config : List (Str × List Str)) (ref : Str) (c : Comp) (d : Dev) (h : Draws c d) (hr0 : ref ≠ []) (ht : d.typ = ['Ø']) (hl : d.lib.head? ≠ some '|')
    (hq : ref.head? ≠ some 'Ø') (pins : List (Str × Str)) (hcfg : config.lookup ref = some (pins.map (fun g => g.1 ++ ',' :: g.2)))
    (hlen : c.ports.length ≤ pins.length) (hp : ∀ n ∈ c.ports, IsWord n) (hg : ∀ g ∈ pins, ',' ∉ g.1 ∧ ',' ∉ g.2 ∧ IsWord g.2) :
    ∃ o : Out, component config ref c = some o ∧
      o.text = "Ø´".toList ++ ref ++ " «".toList ++ spaced (grouped ["in".toList, "input".toList] c.ports pins) ++ "» «".toList ++
        spaced (grouped ["out".toList, "output".toList] c.ports pins) ++ "» «".toList ++ spaced (grouped ["common".toList, "inout".toList] c.ports pins) ++
        "»  ".toList ++ d.name ++ paramText d.params ++ ['\n'] := by
  have hsr : shownRef ref d.typ = "Ø´".toList ++ ref := by
    unfold shownRef
    rw [if_neg (by rw [ht]; exact hq), ht]; rfl
  have hgw : ∀ dirs, ∀ w ∈ grouped dirs c.ports pins, IsWord w := by
    intro dirs w hw
    unfold grouped at hw
    rw [List.mem_filterMap] at hw
    obtain ⟨⟨p, g⟩, hm, he⟩ := hw
    have h1 := hp p (List.of_mem_zip hm).1
    have h2 := (hg g (List.of_mem_zip hm).2).2.2
    by_cases hd : lower g.1 ∈ dirs
    · rw [if_pos hd] at he
      simp only [Option.some.injEq] at he
      rw [← he]
      refine ⟨by simp, ?_⟩
      intro x hx
      rw [List.mem_append, List.mem_cons] at hx
      rcases hx with hx | hx | hx
      · exact h1.2 x hx
      · rw [hx]; decide
      · exact h2.2 x hx
    · rw [if_neg hd] at he; exact absurd he (by simp)
  have hc : compLine config (shownRef ref d.typ) d.name d.typ (padded d.typ c.ports) (modelOf ref d) (paramText d.params) d.value =
      some (spaced [shownRef ref d.typ, '«' :: (spaced (grouped ["in".toList, "input".toList] c.ports pins) ++ ['»']),
        '«' :: (spaced (grouped ["out".toList, "output".toList] c.ports pins) ++ ['»']), '«' :: (spaced (grouped ["common".toList, "inout".toList] c.ports pins) ++ ['»']),
        [], d.name] ++ paramText d.params ++ ['\n']) := by
    have hpad : padded d.typ c.ports = c.ports := by rw [ht]; rfl
    have hbasic : (if '´' ∈ shownRef ref d.typ then (shownRef ref d.typ).drop 2 else shownRef ref d.typ) = ref := by
      rw [hsr, if_pos (by simp)]; rfl
    unfold compLine
    rw [if_neg (by rw [ht]; decide), if_neg (by rw [ht]; decide), if_neg (by rw [ht]; decide), if_neg (by rw [ht]; decide), if_neg (by rw [ht]; decide),
      if_neg (by rw [ht]; decide), if_neg (by rw [ht]; decide), if_pos ht]
    simp only [hbasic, hcfg, hpad]
    rw [if_neg (by rw [List.length_map]; omega), verilogPins_eq c.ports pins _ (fun g hgm => ⟨(hg g hgm).1, (hg g hgm).2.1⟩)]
    simp only [List.nil_append]
    rw [strip_items _ (hgw _), strip_items _ (hgw _), strip_items _ (hgw _)]
  obtain ⟨o, e, e1, _⟩ := draws_out config ref c d h hr0 (by rw [ht]; decide) (Or.inl (by rw [ht]; decide)) _ hc
  refine ⟨o, e, ?_⟩
  rw [e1, if_neg hl, hsr]
  simp [spaced, join]

/-- Limit: without a description of all its pins, a Verilog block is left out of the netlist without an error. -/
theorem C69_verilog_lost (config : List (Str × List Str)) (ref : Str) (c : Comp) (d : Dev) (h : Draws c d) (hr0 : ref ≠ []) (ht : d.typ = ['Ø']) (hl : d.lib.head? ≠ some '|')
    (hq : ref.head? ≠ some 'Ø') (hcfg : ∀ pins, config.lookup ref = some pins → pins.length < c.ports.length) :
    ∃ o : Out, component config ref c = some o ∧ o.text = [] := by
  have hsr : shownRef ref d.typ = "Ø´".toList ++ ref := by
    unfold shownRef
    rw [if_neg (by rw [ht]; exact hq), ht]; rfl
  have hc : compLine config (shownRef ref d.typ) d.name d.typ (padded d.typ c.ports) (modelOf ref d) (paramText d.params) d.value = some [] := by
    have hpad : padded d.typ c.ports = c.ports := by rw [ht]; rfl
    have hbasic : (if '´' ∈ shownRef ref d.typ then (shownRef ref d.typ).drop 2 else shownRef ref d.typ) = ref := by
      rw [hsr, if_pos (by simp)]; rfl
    unfold compLine
    rw [if_neg (by rw [ht]; decide), if_neg (by rw [ht]; decide), if_neg (by rw [ht]; decide), if_neg (by rw [ht]; decide), if_neg (by rw [ht]; decide),
      if_neg (by rw [ht]; decide), if_neg (by rw [ht]; decide), if_pos ht]
    simp only [hbasic, hpad]
    cases hlk : config.lookup ref with
    | none => rfl
    | some pins => simp only [if_pos (hcfg pins hlk)]
  obtain ⟨o, e, e1, _⟩ := draws_out config ref c d h hr0 (by rw [ht]; decide) (Or.inl (by rw [ht]; decide)) _ hc
  exact ⟨o, e, by rw [e1, if_neg hl]; rfl⟩

/-! ### The whole netlist -/

section Layout
open List (Forall₂)

theorem firsts_nil {α β : Type} [DecidableEq β] (name : α → β) : Firsts name [] [] := ⟨List.Sublist.slnil, by simp, by simp⟩

/-- Adding one more at the end. -/
theorem firsts_add {α β : Type} [DecidableEq β] (name : α → β) (all chosen : List α) (b : α) (h : Firsts name all chosen) :
    Firsts name (all ++ [b]) (if chosen.any (fun e => name e = name b) then chosen else chosen ++ [b]) := by
  obtain ⟨h1, h2, h3⟩ := h
  have known : chosen.any (fun e => name e = name b) = true ↔ ∃ e ∈ all, name e = name b := by
    rw [List.any_eq_true]
    constructor
    · rintro ⟨e, he, hn⟩; exact ⟨e, h1.subset he, by simpa using hn⟩
    · rintro ⟨e, he, hn⟩
      obtain ⟨x, hx⟩ : ∃ x, all.find? (fun x => name x = name b) = some x := by
        cases hf : all.find? (fun x => name x = name b) with
        | some x => exact ⟨x, rfl⟩
        | none => rw [List.find?_eq_none] at hf; exact absurd hn (by simpa using hf e he)
      have hxn : name x = name b := by simpa using List.find?_some hx
      refine ⟨x, (h3 x).mpr ?_, by simpa using hxn⟩
      rw [hxn]; exact hx
  by_cases hk : chosen.any (fun e => name e = name b) = true
  · rw [if_pos hk]
    refine ⟨h1.trans (List.sublist_append_left _ _), h2, ?_⟩
    intro x
    rw [h3, List.find?_append]
    by_cases hx : name b = name x
    · obtain ⟨e, he, hn⟩ := known.mp hk
      cases hf : all.find? (fun y => name y = name x) with
      | some y => simp
      | none => rw [List.find?_eq_none] at hf; exact absurd (hn.trans hx) (by simpa using hf e he)
    · cases hf : all.find? (fun y => name y = name x) with
      | some y => simp
      | none => simp [hx]
  · rw [if_neg hk]
    refine ⟨h1.append (List.Sublist.refl _), ?_, ?_⟩
    · rw [List.map_append, List.nodup_append]
      refine ⟨h2, by simp, ?_⟩
      intro y hy z hz
      rw [List.mem_map] at hy
      obtain ⟨e, he, rfl⟩ := hy
      simp only [List.map_cons, List.map_nil, List.mem_singleton] at hz
      rw [hz]
      intro hn
      exact hk (known.mpr ⟨e, h1.subset he, hn⟩)
    · intro x
      rw [List.mem_append, h3, List.find?_append, List.mem_singleton]
      by_cases hx : name b = name x
      · have hf : all.find? (fun y => name y = name x) = none := by
          rw [List.find?_eq_none]
          intro e he hn
          exact hk (known.mpr ⟨e, he, by rw [hx]; simpa using hn⟩)
        rw [hf]
        simp only [Option.none_or, List.find?_cons, hx, decide_true, Option.some.injEq, reduceCtorEq, false_or]
        exact eq_comm
      · have hb : x ≠ b := fun e => hx (by rw [e])
        simp [hx, hb]

theorem components_outs (config : List (Str × List Str)) : ∀ (l : List (Str × Comp)) (a z : Acc) (blocks : List (Str × Str × Nat)) (libs : List Str),
    Firsts (fun b : Str × Str × Nat => b.1) blocks a.blocks → Firsts (fun x : Str => x) libs a.libs → components config a l = some z →
    ∃ outs : List Out, Forall₂ (fun p o => component config p.1 p.2 = some o) l outs ∧ z.text = a.text ++ outs.flatMap (fun o => o.text) ∧
      Firsts (fun b : Str × Str × Nat => b.1) (blocks ++ outs.filterMap (fun o => o.block)) z.blocks ∧
      Firsts (fun x : Str => x) (libs ++ outs.filterMap (fun o => o.lib)) z.libs := by
  intro l
  induction l with
  | nil =>
    intro a z blocks libs hb hl h
    simp only [components, Option.some.injEq] at h
    subst h
    exact ⟨[], .nil, by simp, by simpa using hb, by simpa using hl⟩
  | cons p l ih =>
    intro a z blocks libs hb hl h
    obtain ⟨r, c⟩ := p
    simp only [components] at h
    cases ho : component config r c with
    | none => rw [ho] at h; exact absurd h (by simp)
    | some o =>
      rw [ho] at h
      have hb' : Firsts (fun b : Str × Str × Nat => b.1) (blocks ++ o.block.toList) (a.add o).blocks := by
        unfold Acc.add
        cases hob : o.block with
        | none => simpa using hb
        | some b => exact firsts_add _ _ _ b hb
      have hl' : Firsts (fun x : Str => x) (libs ++ o.lib.toList) (a.add o).libs := by
        unfold Acc.add
        cases hol : o.lib with
        | none => simpa using hl
        | some x =>
          have := firsts_add (fun x : Str => x) _ _ x hl
          have e : (a.libs.any (fun e => decide (e = x)) = true) ↔ x ∈ a.libs := by simp
          simp only [e] at this
          exact this
      obtain ⟨outs, h1, h2, h3, h4⟩ := ih (a.add o) z _ _ hb' hl' h
      refine ⟨o :: outs, .cons ho h1, ?_, ?_, ?_⟩
      · rw [h2]; simp [Acc.add]
      · cases hob : o.block with
        | none => rw [hob] at h3; simpa [hob] using h3
        | some b => rw [hob] at h3; simpa [hob] using h3
      · cases hol : o.lib with
        | none => rw [hol] at h4; simpa [hol] using h4
        | some b => rw [hol] at h4; simpa [hol] using h4

theorem writeSubs_get (find : Str → Option Str) : ∀ (subs : List Sch) (k : Nat), (writeSubs find subs)[k]? = (subs[k]?).map (writeSub find)
  | [], k => by simp [writeSubs]
  | s :: l, 0 => by simp [writeSubs]
  | s :: l, k + 1 => by simp [writeSubs, writeSubs_get find l k]

theorem blockTexts_all (inner : List (Option Str)) : ∀ (bs : List (Str × Str × Nat)) (t : Str), blockTexts inner bs = some t →
    ∃ ts, Forall₂ (fun b s => blockText inner b = some s) bs ts ∧ t = ts.flatten
  | [], t, h => by
    simp only [blockTexts, Option.some.injEq] at h
    exact ⟨[], .nil, by simp [← h]⟩
  | b :: bs, t, h => by
    simp only [blockTexts] at h
    cases h1 : blockText inner b with
    | none => rw [h1] at h; simp at h
    | some x =>
      cases h2 : blockTexts inner bs with
      | none => rw [h1, h2] at h; simp at h
      | some y =>
        rw [h1, h2] at h
        obtain ⟨ts, h3, h4⟩ := blockTexts_all inner bs y h2
        exact ⟨x :: ts, .cons h1 h3, by simp only [Option.some.injEq] at h; rw [← h, h4]; simp⟩

theorem textLines_says {t : Tag} {s : Str} (h : textLines t = some s) : TextSays t s := by
  unfold textLines at h
  cases h1 : t.getAttr 8 with
  | none => rw [h1] at h; simp at h
  | some x => cases x with
    | int n => rw [h1] at h; simp at h
    | tuple l => rw [h1] at h; simp at h
    | text x =>
      cases h2 : t.getAttr 4 with
      | none => rw [h1, h2] at h; simp at h
      | some a =>
        rw [h1, h2] at h
        simp only at h
        refine ⟨x, a, h1, h2, ?_⟩
        by_cases ha : a = .int 1
        · rw [if_pos ha] at h ⊢; simpa using h.symm
        · rw [if_neg ha] at h ⊢
          simp only [Option.some.injEq] at h
          rw [← h, List.flatMap_def]

theorem allTextLines_all : ∀ (l : List Tag) (t : Str), allTextLines l = some t → ∃ ts, Forall₂ TextSays l ts ∧ t = ts.flatten
  | [], t, h => by
    simp only [allTextLines, Option.some.injEq] at h
    exact ⟨[], .nil, by simp [← h]⟩
  | b :: bs, t, h => by
    simp only [allTextLines] at h
    cases h1 : textLines b with
    | none => rw [h1] at h; simp at h
    | some x =>
      cases h2 : allTextLines bs with
      | none => rw [h1, h2] at h; simp at h
      | some y =>
        rw [h1, h2] at h
        obtain ⟨ts, h3, h4⟩ := allTextLines_all bs y h2
        exact ⟨x :: ts, .cons (textLines_says h1) h3, by simp only [Option.some.injEq] at h; rw [← h, h4]; simp⟩

/-- The definition of a block: its name, its pins, the netlist of its schematic, and its end. -/
def Defines (find : Str → Option Str) (subs : List Sch) (b : Str × Str × Nat) (s : Str) : Prop :=
  ∃ sub body, subs[b.2.2]? = some sub ∧ write [] find sub = some body ∧
    s = "\n.subckt ".toList ++ b.1 ++ " ".toList ++ b.2.1 ++ "\n".toList ++ body ++ ".ends ".toList ++ b.1 ++ "\n\n".toList

theorem writeSub_eq (find : Str → Option Str) (s : Sch) : writeSub find s = write [] find s := by cases s; rfl

theorem write_mk (config : List (Str × List Str)) (find : Str → Option Str) (comps : List (Str × Comp)) (top : Tag) (subs : List Sch) :
    write config find (.mk comps top subs) = sheetText config find comps top (writeSubs find subs) := rfl

theorem sheet_layout (config : List (Str × List Str)) (find : Str → Option Str) (comps : List (Str × Comp)) (top : Tag) (subs : List Sch) (text : Str)
    (h : write config find (.mk comps top subs) = some text) :
    ∃ (outs : List Out) (blocks : List (Str × Str × Nat)) (libs defs texts : List Str),
      Forall₂ (fun p o => component config p.1 p.2 = some o) comps outs ∧
      Firsts (fun b : Str × Str × Nat => b.1) (outs.filterMap (fun o => o.block)) blocks ∧ Forall₂ (Defines find subs) blocks defs ∧
      Forall₂ TextSays (children top "text".toList) texts ∧ Firsts (fun x : Str => x) (outs.filterMap (fun o => o.lib)) libs ∧
      text = (outs.map (fun o => o.text)).flatten ++ defs.flatten ++ texts.flatten ++ (libs.map (fun l => ".lib ".toList ++ (find l).getD l ++ "\n".toList)).flatten := by
  rw [write_mk] at h
  unfold sheetText at h
  cases hc : components config ⟨[], [], []⟩ comps with
  | none => rw [hc] at h; simp at h
  | some a =>
    rw [hc] at h
    simp only at h
    cases hb : blockTexts (writeSubs find subs) a.blocks with
    | none => rw [hb] at h; simp at h
    | some b =>
      cases ht : allTextLines (getItems top "text".toList) with
      | none => rw [hb, ht] at h; simp at h
      | some t =>
        rw [hb, ht] at h
        simp only [Option.some.injEq] at h
        obtain ⟨outs, h1, h2, h3, h4⟩ := components_outs config comps ⟨[], [], []⟩ a [] [] (firsts_nil _) (firsts_nil _) hc
        obtain ⟨defs, h5, h6⟩ := blockTexts_all _ _ _ hb
        obtain ⟨texts, h7, h8⟩ := allTextLines_all _ _ ht
        refine ⟨outs, a.blocks, a.libs, defs, texts, h1, h3, ?_, h7, h4, ?_⟩
        · refine h5.imp ?_
          intro b s hs
          unfold blockText at hs
          rw [writeSubs_get] at hs
          cases hk : subs[b.2.2]? with
          | none => rw [hk] at hs; simp at hs
          | some sub =>
            rw [hk, Option.map_some] at hs
            cases hw : writeSub find sub with
            | none => rw [hw] at hs; simp at hs
            | some body =>
              rw [hw] at hs
              simp only [Option.some.injEq] at hs
              refine ⟨sub, body, hk, by rw [← writeSub_eq]; exact hw, ?_⟩
              rw [← hs]
              simp only [List.append_assoc, List.cons_append]
              rfl
        · rw [← h, h2, h6, h8, List.flatMap_def, List.flatMap_def]
          rfl

/-- The netlist: a comment with the path of the schematic; what each component contributes, in order; the definition of each block used,
once per name, the first use deciding; the texts of the sheet, without comments; the libraries, each once; the end. The definition of a
block holds the netlist of its schematic, in which the same is true. -/
theorem C69_layout (config : List (Str × List Str)) (find : Str → Option Str) (path : Str) (comps : List (Str × Comp)) (top : Tag) (subs : List Sch) (text : Str)
    (h : saveNetlist config find path (.mk comps top subs) = some text) :
    ∃ (outs : List Out) (blocks : List (Str × Str × Nat)) (libs defs texts : List Str),
      Forall₂ (fun p o => component config p.1 p.2 = some o) comps outs ∧
      Firsts (fun b : Str × Str × Nat => b.1) (outs.filterMap (fun o => o.block)) blocks ∧ Forall₂ (Defines find subs) blocks defs ∧
      Forall₂ TextSays (children top "text".toList) texts ∧ Firsts (fun x : Str => x) (outs.filterMap (fun o => o.lib)) libs ∧
      text = "* ".toList ++ path ++ "\n".toList ++ (outs.map (fun o => o.text)).flatten ++ defs.flatten ++ texts.flatten ++
        (libs.map (fun l => ".lib ".toList ++ (find l).getD l ++ "\n".toList)).flatten ++ ".end\n".toList := by
  unfold saveNetlist at h
  rw [Option.map_eq_some_iff] at h
  obtain ⟨t, h1, h2⟩ := h
  obtain ⟨outs, blocks, libs, defs, texts, a1, a2, a3, a4, a5, a6⟩ := sheet_layout config find comps top subs t h1
  refine ⟨outs, blocks, libs, defs, texts, a1, a2, a3, a4, a5, ?_⟩
  rw [← h2, a6]
  simp only [List.append_assoc]
  rfl

/-- The same for the netlist inside the definition of a block; Verilog blocks in it have no description. -/
theorem C69_layout_inside (find : Str → Option Str) (comps : List (Str × Comp)) (top : Tag) (subs : List Sch) (text : Str)
    (h : write [] find (.mk comps top subs) = some text) :
    ∃ (outs : List Out) (blocks : List (Str × Str × Nat)) (libs defs texts : List Str),
      Forall₂ (fun p o => component [] p.1 p.2 = some o) comps outs ∧
      Firsts (fun b : Str × Str × Nat => b.1) (outs.filterMap (fun o => o.block)) blocks ∧ Forall₂ (Defines find subs) blocks defs ∧
      Forall₂ TextSays (children top "text".toList) texts ∧ Firsts (fun x : Str => x) (outs.filterMap (fun o => o.lib)) libs ∧
      text = (outs.map (fun o => o.text)).flatten ++ defs.flatten ++ texts.flatten ++ (libs.map (fun l => ".lib ".toList ++ (find l).getD l ++ "\n".toList)).flatten :=
  sheet_layout [] find comps top subs text h

end Layout

/-- A disabled component leaves no trace. -/
theorem C69_disabled (config : List (Str × List Str)) (ref : Str) (c : Comp) (h : c.enabled = false) : component config ref c = some ⟨[], none, none⟩ := by
  unfold component
  split
  · rw [h]; rfl
  · rfl

/-- Changing a component changes its own text only, when it keeps its library and its block. -/
theorem C69_frame (config : List (Str × List Str)) (find : Str → Option Str) (path ref : Str) (before after : List (Str × Comp)) (c c' : Comp) (o o' : Out) (top : Tag) (subs : List Sch)
    (text : Str) (h1 : component config ref c = some o) (h2 : component config ref c' = some o') (hl : o'.lib = o.lib) (hb : o'.block = o.block)
    (h : saveNetlist config find path (.mk (before ++ (ref, c) :: after) top subs) = some text) :
    ∃ pre post, text = pre ++ o.text ++ post ∧ saveNetlist config find path (.mk (before ++ (ref, c') :: after) top subs) = some (pre ++ o'.text ++ post) := by
  have run : ∀ (l : List (Str × Comp)) (a b : Acc) (u : Str), components config a l = some b →
      ∃ w, b.text = a.text ++ w ∧ components config { a with text := u } l = some { b with text := u ++ w } := by
    intro l
    induction l with
    | nil =>
      intro a b u hh
      simp only [components, Option.some.injEq] at hh
      subst hh
      exact ⟨[], by simp, by simp [components]⟩
    | cons p l ih =>
      intro a b u hh
      obtain ⟨r, x⟩ := p
      simp only [components] at hh ⊢
      cases ho : component config r x with
      | none => rw [ho] at hh; exact absurd hh (by simp)
      | some q =>
        rw [ho] at hh
        obtain ⟨w, e1, e2⟩ := ih (a.add q) b (u ++ q.text) hh
        exact ⟨q.text ++ w, by rw [e1]; simp [Acc.add], by rw [← List.append_assoc]; exact e2⟩
  have two : ∀ (l m : List (Str × Comp)) (a : Acc), components config a (l ++ m) = (components config a l).bind (fun b => components config b m) := by
    intro l
    induction l with
    | nil => intro m a; rfl
    | cons p l ih =>
      intro m a
      obtain ⟨r, x⟩ := p
      simp only [List.cons_append, components]
      cases component config r x with
      | none => rfl
      | some q => exact ih m _
  unfold saveNetlist at h ⊢
  rw [Option.map_eq_some_iff] at h
  obtain ⟨t, h3, h4⟩ := h
  rw [write_mk] at h3 ⊢
  unfold sheetText at h3 ⊢
  rw [two] at h3 ⊢
  cases hA : components config ⟨[], [], []⟩ before with
  | none => rw [hA] at h3; simp at h3
  | some a =>
    rw [hA] at h3
    simp only [Option.bind_some, components, h1, h2] at h3 ⊢
    cases hB : components config (a.add o) after with
    | none => rw [hB] at h3; simp at h3
    | some z =>
      obtain ⟨w, e1, e2⟩ := run after (a.add o) z (a.text ++ o'.text) hB
      have e3 : a.add o' = { a.add o with text := a.text ++ o'.text } := by simp [Acc.add, hl, hb]
      rw [e3, e2]
      rw [hB] at h3
      simp only at h3 ⊢
      cases hb : blockTexts (writeSubs find subs) z.blocks with
      | none => rw [hb] at h3; simp at h3
      | some bt =>
        cases ht : allTextLines (getItems top "text".toList) with
        | none => rw [hb, ht] at h3; simp at h3
        | some tt =>
          rw [hb, ht] at h3
          simp only [Option.some.injEq] at h3
          refine ⟨"* ".toList ++ path ++ '\n' :: a.text, w ++ bt ++ tt ++ z.libs.flatMap (libLine find) ++ ".end\n".toList, ?_, ?_⟩
          · rw [← h4, ← h3, e1]
            simp only [Acc.add, List.append_assoc, List.cons_append]
          · simp only [Option.map_some, List.append_assoc, List.cons_append]

/-- Limit: the netlist is written from what was read, so removing a component from the drawing does not remove it from the netlist. -/
theorem C69_removed_remains (config : List (Str × List Str)) (find : Str → Option Str) (path : Str) (comps : List (Str × Comp)) (tokens : List Str) (a b : List Tag) (x : Tag) (subs : List Sch)
    (hx : x.tokens.head? ≠ some "text".toList) :
    saveNetlist config find path (.mk comps (.mk tokens (a ++ b)) subs) = saveNetlist config find path (.mk comps (.mk tokens (a ++ x :: b)) subs) := by
  have : getItems (.mk tokens (a ++ x :: b)) "text".toList = getItems (.mk tokens (a ++ b)) "text".toList := by
    unfold getItems
    simp only [Tag.items, List.filter_append, List.filter_cons]
    rw [if_neg (by simpa using hx)]
  unfold saveNetlist
  rw [write_mk, write_mk]
  unfold sheetText
  rw [this]

/-! ### Samples -/

def tg (l : List String) (items : List Tag) : Tag := .mk (l.map String.toList) items
def txt (s : String) : Tag := tg ["text", "(0,0)", "1", "0", "0", "0x1000000", "-1", "-1", "\"" ++ s ++ "\""] []
def pin (s : String) : Tag := tg ["pin", "(0,0)", "(0,0)", "1", "0", "0", "0x1000000", "-1", "\"" ++ s ++ "\""] []
def symbol (name typ lib : String) (texts pins : List String) : Tag :=
  tg ["component", "(0,0)", "0", "0"]
    [tg ["symbol", name] (tg ["type:", typ] [] :: (if lib = "" then [] else [tg ["library file:", lib] []]) ++ texts.map txt ++ pins.map pin)]
def part (name typ lib : String) (texts pins ports : List String) (sub : Option Nat) : Comp := ⟨symbol name typ lib texts pins, true, ports.map String.toList, [], sub⟩

def r1 : Comp := part "R" "R" "" ["R1", "1k", "tol=<5>"] [] ["in", "out"] none
def m1 : Comp := part "NMOSB" "MN" "parts.txt" ["M1", "FET"] [] ["d", "g", "s"] none
def x1 : Comp := part "Blk" "X" "" ["X1", "amp"] ["A", "B"] ["in", "0"] (some 0)
def x2 : Comp := part "Blk" "X" "" ["X2", "amp"] ["A", "B"] ["out", "0"] (some 0)
def d1 : Comp := part "D" "D" "|.model DX D(Is=1)" ["D1", "DX"] [] ["in", "0"] none
def inner : Sch := .mk [("R1".toList, part "R" "R" "" ["R1", "2"] [] ["A", "B"] none)] (tg ["schematic"] []) []
def sheet : Sch := .mk [("R1".toList, r1), ("M1".toList, m1), ("X1".toList, x1), ("X2".toList, x2), ("D1".toList, d1)]
  (tg ["schematic"] [tg ["text", "(0,0)", "1", "7", "0", "0", "0", "0", "\"ï».tran 1 \\n.meas x\""] [], tg ["text", "(0,0)", "1", "7", "1", "0", "0", "0", "\"a remark\""] []]) [inner]

theorem C69_sample : saveNetlist [] (fun _ => none) "/a.qsch".toList sheet =
    some ("* /a.qsch\nR1 in out 1k tol=5\nM1 d g s s FET NMOS\nX1 in 0 amp\nX2 out 0 amp\n.model D1•DX D(Is=1)\nD1 in 0 D1•DX\n" ++
      "\n.subckt amp A B\nR1 A B 2\n.ends amp\n\n.tran 1\n.meas x\n.lib parts.txt\n.end\n").toList := by
  decide +kernel

/-- The parts of the sample draw what they seem to. -/
theorem C69_sample_draws : Draws r1 ⟨"R".toList, "R".toList, "1k".toList, ["tol=<5>".toList], []⟩ ∧
    Draws m1 ⟨"NMOSB".toList, "MN".toList, "FET".toList, [], "parts.txt".toList⟩ ∧ Draws d1 ⟨"D".toList, "D".toList, "DX".toList, [], "|.model DX D(Is=1)".toList⟩ := by
  refine ⟨⟨rfl, _, rfl, .named (tt := tg ["type:", "R"] []) (by decide +kernel) rfl rfl, ⟨_, _, _, rfl, by decide +kernel, by decide +kernel⟩, Or.inl ⟨rfl, rfl⟩⟩,
    ⟨rfl, _, rfl, .named (tt := tg ["type:", "MN"] []) (by decide +kernel) rfl rfl, ⟨_, _, _, rfl, by decide +kernel, by decide +kernel⟩, Or.inr ⟨_, rfl, rfl⟩⟩,
    ⟨rfl, _, rfl, .named (tt := tg ["type:", "D"] []) (by decide +kernel) rfl rfl, ⟨_, _, _, rfl, by decide +kernel, by decide +kernel⟩, Or.inr ⟨_, rfl, rfl⟩⟩⟩

/-- Limit: a transistor with a substrate pin that is drawn with three pins stops the writing. -/
theorem C69_substrate_missing : component [] "Q1".toList (part "NPNS" "QN" "" ["Q1", "B"] [] ["c", "b", "e"] none) = none := by decide +kernel

/-- Limit: an embedded definition in capitals is written as it is, with the bar in front, under a name that the line does not use. -/
theorem C69_capitals : (component [] "D1".toList (part "D" "D" "|.MODEL DX D" ["D1", "DX"] [] ["in", "0"] none)).map (fun o => o.text) =
    some "|.MODEL DX D\nD1 in 0 D1•DX\n".toList := by decide +kernel

/-- Limit: a block whose value was changed defines the new name with the old schematic, which was found when the file was read. -/
theorem C69_renamed_block : (write [] (fun _ => none) (.mk [("X1".toList, part "Blk" "X" "" ["X1", "filter"] ["A", "B"] ["in", "0"] (some 0))] (tg ["schematic"] []) [inner])) =
    some "X1 in 0 filter\n\n.subckt filter A B\nR1 A B 2\n.ends filter\n\n".toList := by decide +kernel

/-- A Verilog block with pins of three kinds. -/
theorem C69_sample_verilog : (component [("X1".toList, ["in,b".toList, "OUT,uc".toList, "input,f".toList, "inout,b".toList])] "X1".toList
    (part "vmod" "Ø" "" ["X1", "vmod"] [] ["a", "b", "c", "d"] none)).map (fun o => o.text) = some "Ø´X1 «a´b c´f» «b´uc» «d´b»  vmod\n".toList := by decide +kernel

end Props.QNetlist
