import Verif.Model.NetTree
import Verif.Spec.NetBlocks
import Verif.Lemmas.Netlist
import Verif.Props.Lines
/-
C32: loading and saving netlists.
-/
namespace Props.NetTree
open Model.NetTree Model.PyStr Spec.NetBlocks Spec.LogicalLine
open Model.Netlist (Str lineCommand)
open Model.Lines (separateLines Out)

mutual
/-- The element that stands for a block. -/
def item : Block → Item
  | .line s => match kindOf s with
    | some .text => .text s
    | some .comp => .comp s
    | some .incl => .incl s
    | _ => .prim s
  | .subckt h b t => .sub (.prim h :: (itemsOf b ++ [.prim t]))
  | .control h b t => .ctrl ((h :: (b ++ [t])).flatMap (fun l => rstrip l ++ ['\n']))
def itemsOf : List Block → List Item
  | [] => []
  | b :: bs => item b :: itemsOf bs
end

theorem addLines_control (open_ : List Item) (outer : List (List Item)) (t : Str) (ht : endsControl t = true) (rest : List Str) :
    ∀ (b : List Str) (s : Str), (∀ l ∈ b, endsControl l = false) →
    addLines open_ outer (some s) (b ++ t :: rest) =
      addLines (.ctrl (s ++ (b ++ [t]).flatMap (fun l => rstrip l ++ ['\n'])) :: open_) outer none rest := by
  intro b
  induction b with
  | nil =>
    intro s _
    conv => lhs; rw [List.nil_append, addLines]
    simp [ht]
  | cons l b ih =>
    intro s h
    conv => lhs; rw [List.cons_append, addLines]
    simp only [h l (by simp), Bool.false_eq_true, if_false]
    rw [ih _ (fun x hx => h x (by simp [hx]))]
    simp

mutual
theorem addLines_block (open_ : List Item) (outer : List (List Item)) (b : Block) (h : b.ok) (rest : List Str) :
    addLines open_ outer none (b.lines ++ rest) = addLines (item b :: open_) outer none rest := by
  match b with
  | .line s =>
    simp only [Block.lines, item, List.singleton_append]
    simp only [Block.ok, kindOf] at h
    cases hc : lineCommand s with
    | none => rw [hc] at h; simp at h
    | some cmd =>
      rw [hc] at h
      simp only [Option.map_some, Option.some.injEq] at h
      conv => lhs; unfold addLines
      simp only [kindOf, hc, Option.map_some]
      rcases h with h | h | h | h <;> simp only [h]
  | .subckt hd body t =>
    simp only [Block.lines, item, List.cons_append, List.append_assoc, List.singleton_append]
    simp only [Block.ok, kindOf] at h
    obtain ⟨h1, h2, h3⟩ := h
    cases hc : lineCommand hd with
    | none => rw [hc] at h1; simp at h1
    | some cmd =>
      rw [hc] at h1
      simp only [Option.map_some, Option.some.injEq] at h1
      conv => lhs; unfold addLines
      simp only [hc, h1]
      rw [addLines_blocks _ _ body h2]
      cases hc2 : lineCommand t with
      | none => rw [hc2] at h3; simp at h3
      | some cmd2 =>
        rw [hc2] at h3
        simp only [Option.map_some, Option.some.injEq] at h3
        conv => lhs; rw [addLines]
        simp only [hc2, h3]
        simp
  | .control hd body t =>
    simp only [Block.lines, item, List.cons_append, List.append_assoc, List.singleton_append]
    simp only [Block.ok, kindOf] at h
    obtain ⟨h1, h2, h3⟩ := h
    cases hc : lineCommand hd with
    | none => rw [hc] at h1; simp at h1
    | some cmd =>
      rw [hc] at h1
      simp only [Option.map_some, Option.some.injEq] at h1
      conv => lhs; unfold addLines
      simp only [hc, h1]
      rw [addLines_control _ _ _ h3 _ _ _ h2]
      simp
theorem addLines_blocks (open_ : List Item) (outer : List (List Item)) (bs : List Block) (h : allOk bs) (rest : List Str) :
    addLines open_ outer none (linesOf bs ++ rest) = addLines ((itemsOf bs).reverse ++ open_) outer none rest := by
  match bs with
  | [] => simp [linesOf, itemsOf]
  | b :: bs =>
    simp only [allOk] at h
    simp only [linesOf, itemsOf, List.append_assoc]
    rw [addLines_block _ _ b h.1, addLines_blocks _ _ bs h.2]
    simp
end

/-- C32: the elements of a loaded netlist have exactly the block structure of its lines, for any nesting; the lines after the
closing line are left to the caller. -/
theorem C32_load_structure (bs : List Block) (h : allOk bs) (e : Str) (he : kindOf e = some .closing) (rest : List Str) :
    addLines [] [] none (linesOf bs ++ e :: rest) = .ok ⟨true, itemsOf bs ++ [.prim e], rest⟩ := by
  rw [addLines_blocks _ _ bs h]
  unfold kindOf at he
  cases hc : lineCommand e with
  | none => rw [hc] at he; simp at he
  | some cmd =>
    rw [hc] at he
    simp only [Option.map_some, Option.some.injEq] at he
    conv => lhs; rw [addLines]
    simp only [hc, he]
    simp

/-- The comments among some lines. -/
def comments (l : List Str) : List Item := (l.filter (fun s => kindOf s == some .text)).map .text

/-- C32: a whole netlist. Of what follows the closing line only comments are kept. -/
theorem C32_load (bs : List Block) (h : allOk bs) (e : Str) (he : kindOf e = some .closing) (rest : List Str)
    (hr : ∀ l ∈ rest, ∃ k, kindOf l = some k) (inc : Bool) :
    load inc (linesOf bs ++ e :: rest) = .ok (itemsOf bs ++ [.prim e] ++ comments rest) := by
  unfold load
  rw [C32_load_structure bs h e he rest]
  have ht : trailing rest = .ok (comments rest) := by
    clear he h
    induction rest with
    | nil => rfl
    | cons l rest ih =>
      obtain ⟨k, hk⟩ := hr l (by simp)
      have := ih (fun x hx => hr x (by simp [hx]))
      unfold trailing
      unfold kindOf at hk
      cases hc : lineCommand l with
      | none => rw [hc] at hk; simp at hk
      | some cmd =>
        simp only [this]
        have hiff : (kindOf l == some .text) = decide (cmd = ['*']) := by
          unfold kindOf
          rw [hc, Option.map_some]
          by_cases hst : cmd = ['*']
          · subst hst; decide
          · simp only [hst, decide_false]
            have : kind cmd ≠ .text := by
              unfold kind
              split_ifs <;> simp
            simpa using this
        unfold comments
        rw [List.filter_cons, hiff]
        by_cases hst : cmd = ['*'] <;> simp [hst]
  simp only [ht, Bool.true_or, if_true]

/-- C32 (finding): any directive whose name starts with .END closes the netlist, for example the .ENDMACHINE of an LTspice
state machine: the components after it are dropped without an error. -/
theorem C32_endmachine_truncates :
    load false ["* t\n".toList, ".machine\n".toList, ".endmachine\n".toList, "R1 a b 1k\n".toList, ".end\n".toList] =
      .ok [.text "* t\n".toList, .prim ".machine\n".toList, .prim ".endmachine\n".toList] := by
  have := C32_load [.line "* t\n".toList, .line ".machine\n".toList] (by simp only [allOk, Block.ok]; decide +kernel)
    ".endmachine\n".toList (by decide +kernel) ["R1 a b 1k\n".toList, ".end\n".toList]
    (by
      intro l hl
      simp only [List.mem_cons, List.not_mem_nil, or_false] at hl
      rcases hl with rfl | rfl
      · exact ⟨.comp, by decide +kernel⟩
      · exact ⟨.closing, by decide +kernel⟩) false
  exact this

/-- C32: a netlist whose blocks are not all closed is rejected. -/
theorem C32_unterminated_raises (bs : List Block) (h : allOk bs) (hd : Str) (hh : kindOf hd = some .subckt) (body : List Block)
    (hb : allOk body) : load false (linesOf bs) = .error .syntaxErr ∧ load false (linesOf bs ++ hd :: linesOf body) = .error .syntaxErr := by
  have h1 : addLines [] [] none (linesOf bs) = .ok ⟨false, itemsOf bs, []⟩ := by
    have := addLines_blocks [] [] bs h []
    rw [List.append_nil] at this
    rw [this, addLines]
    simp
  have h2 : addLines [] [] none (linesOf bs ++ hd :: linesOf body) = .ok ⟨false, itemsOf bs, []⟩ := by
    rw [addLines_blocks _ _ bs h]
    unfold kindOf at hh
    cases hc : lineCommand hd with
    | none => rw [hc] at hh; simp at hh
    | some cmd =>
      rw [hc] at hh
      simp only [Option.map_some, Option.some.injEq] at hh
      conv => lhs; rw [addLines]
      simp only [hc, hh]
      have := addLines_blocks [.prim hd] [(itemsOf bs).reverse] body hb []
      rw [List.append_nil] at this
      simp only [List.append_nil]
      rw [this, addLines]
      simp
  constructor
  · unfold load; rw [h1]; rfl
  · unfold load; rw [h2]; rfl

/-- C32 is violated for included files: an unterminated block is dropped without an error, together with all that follows
it. -/
theorem C32_unterminated_include_dropped (bs : List Block) (h : allOk bs) (hd : Str) (hh : kindOf hd = some .subckt)
    (body : List Block) (hb : allOk body) : load true (linesOf bs ++ hd :: linesOf body) = .ok (itemsOf bs) := by
  have h2 : addLines [] [] none (linesOf bs ++ hd :: linesOf body) = .ok ⟨false, itemsOf bs, []⟩ := by
    rw [addLines_blocks _ _ bs h]
    unfold kindOf at hh
    cases hc : lineCommand hd with
    | none => rw [hc] at hh; simp at hh
    | some cmd =>
      rw [hc] at hh
      simp only [Option.map_some, Option.some.injEq] at hh
      conv => lhs; rw [addLines]
      simp only [hc, hh]
      have := addLines_blocks [.prim hd] [(itemsOf bs).reverse] body hb []
      rw [List.append_nil] at this
      simp only [List.append_nil]
      rw [this, addLines]
      simp
  unfold load; rw [h2]
  simp [trailing]

/-! ### Nothing is lost -/

mutual
/-- All the text stored in an element. -/
def raw : Item → Str
  | .text s => s
  | .prim s => s
  | .comp s => s
  | .ctrl s => s
  | .incl s => s
  | .sub l => raws l
def raws : List Item → Str
  | [] => []
  | i :: is => raw i ++ raws is
end

theorem raws_append (a b : List Item) : raws (a ++ b) = raws a ++ raws b := by
  induction a with
  | nil => rfl
  | cons x a ih => simp [raws, ih]

theorem appendTo_raws (line : Str) : ∀ (l l' : List Item), appendTo line l = .ok l' → raws l' = raws l ++ line := by
  intro l
  induction l with
  | nil => intro l' h; simp [appendTo] at h
  | cons x xs ih =>
    intro l' h
    cases xs with
    | nil =>
      cases x <;> simp only [appendTo, Except.ok.injEq, reduceCtorEq] at h <;> subst h <;> simp [raws, raw]
    | cons y ys =>
      cases hh : appendTo line (y :: ys) with
      | error e => cases x <;> simp only [appendTo, hh] at h <;> cases h
      | ok m =>
        have h' : x :: m = l' := by cases x <;> simpa only [appendTo, hh, Except.ok.injEq] using h
        subst h'
        rw [raws, ih m hh]
        simp [raws]

/-- What is open, what is around it and the lines still to come are all in the result, in order. -/
theorem nothing_lost_from (r : Loaded) (hf : r.finished = true) : ∀ (lines : List Str) (open_ : List Item) (outer : List (List Item)),
    (∀ l ∈ lines, kindOf l ≠ some .control) → addLines open_ outer none lines = .ok r →
    raws r.items ++ r.rest.flatten = (outer.reverse.map (fun o => raws o.reverse)).flatten ++ raws open_.reverse ++ lines.flatten := by
  intro lines
  induction lines with
  | nil =>
    intro open_ outer _ h
    simp only [addLines, Except.ok.injEq] at h
    rw [← h] at hf
    simp at hf
  | cons line lines ih =>
    intro open_ outer hc h
    have hc' : ∀ l ∈ lines, kindOf l ≠ some .control := fun l hl => hc l (by simp [hl])
    unfold addLines at h
    simp only at h
    cases hl : lineCommand line with
    | none => rw [hl] at h; cases h
    | some cmd =>
      rw [hl] at h
      simp only at h
      have hk : kind cmd ≠ .control := by
        intro hh
        exact hc line (by simp) (by simp [kindOf, hl, hh])
      cases hkd : kind cmd <;> rw [hkd] at h <;> simp only at h
      · rw [ih _ _ hc' h]; simp [raws, raw]
      · exact absurd hkd hk
      · rw [ih _ _ hc' h]; simp [raws, raw, raws_append]
      · cases ha : appendTo line open_.reverse with
        | error e => rw [ha] at h; cases h
        | ok m =>
          rw [ha] at h
          rw [ih _ _ hc' h, List.reverse_reverse, appendTo_raws _ _ _ ha]
          simp
      · rw [ih _ _ hc' h]; simp [raws, raw, raws_append]
      · rw [ih _ _ hc' h]; simp [raws, raw, raws_append]
      · cases outer with
        | nil =>
          simp only [Except.ok.injEq] at h
          rw [← h]
          simp [raws_append, raws, raw]
        | cons o os =>
          simp only at h
          rw [ih _ _ hc' h]
          simp [raws_append, raws, raw]
      · rw [ih _ _ hc' h]; simp [raws, raw, raws_append]

/-- C32: whatever the lines (continuations included), a netlist that is closed contains all the text up to its closing line, in
order. (Control sections lose trailing blanks, so they are left out here; see C32_load_structure.) -/
theorem C32_nothing_lost (lines : List Str) (r : Loaded) (h : addLines [] [] none lines = .ok r) (hf : r.finished = true)
    (hc : ∀ l ∈ lines, kindOf l ≠ some .control) : raws r.items ++ r.rest.flatten = lines.flatten := by
  have := nothing_lost_from r hf lines [] [] hc h
  simpa [raws] using this

/-! ### Saving -/

/-- A line as the writer leaves it: no blanks around it, one line break at the end. -/
def Tidy (s : Str) : Prop := strip s ++ ['\n'] = s

mutual
/-- The lines of a block that are written from a Primitive are tidy, the components are lines that the writer does not change,
and nothing is included. -/
def blockTidy (untouched : Str → Option Str) : Block → Prop
  | .line s => kindOf s = some .text ∨ (kindOf s = some .comp ∧ untouched s = some s) ∨ (kindOf s = some .other ∧ Tidy s)
  | .subckt h b t => Tidy h ∧ allTidy untouched b ∧ Tidy t
  | .control h b t => ∀ l ∈ h :: (b ++ [t]), rstrip l ++ ['\n'] = l
def allTidy (untouched : Str → Option Str) : List Block → Prop
  | [] => True
  | b :: bs => blockTidy untouched b ∧ allTidy untouched bs
end

theorem writeItems_append (u inc : Str → Option Str) (a b : List Item) (x y : Str) (ha : writeItems u inc a = some x)
    (hb : writeItems u inc b = some y) : writeItems u inc (a ++ b) = some (x ++ y) := by
  induction a generalizing x with
  | nil => simp only [writeItems, Option.some.injEq] at ha; subst ha; simpa using hb
  | cons i a ih =>
    rw [writeItems] at ha
    rw [List.cons_append, writeItems]
    cases hi : writeItem u inc i with
    | none => rw [hi] at ha; simp at ha
    | some p =>
      cases hr : writeItems u inc a with
      | none => rw [hi, hr] at ha; simp at ha
      | some q =>
        rw [hi, hr] at ha
        simp only [Option.some.injEq] at ha
        rw [ih q hr]
        simp [← ha]

mutual
theorem write_block (u inc : Str → Option Str) (b : Block) (h : b.ok) (ht : blockTidy u b) : writeItem u inc (item b) = some b.lines.flatten := by
  match b with
  | .line s =>
    simp only [blockTidy] at ht
    simp only [item, Block.lines]
    rcases ht with ht | ⟨ht, h2⟩ | ⟨ht, h2⟩
    · simp [ht, writeItem]
    · simp [ht, writeItem, h2]
    · simp only [ht, writeItem]
      rw [h2]; simp
  | .subckt hd body t =>
    simp only [blockTidy] at ht
    simp only [Block.ok] at h
    simp only [item, Block.lines, writeItem]
    have hb := write_blocks u inc body h.2.1 ht.2.1
    have htl : writeItems u inc [Item.prim t] = some t := by
      simp only [writeItems, writeItem]; rw [ht.2.2]; simp
    rw [writeItems, writeItems_append u inc _ _ _ _ hb htl]
    simp only [writeItem]
    rw [ht.1]; simp
  | .control hd body t =>
    simp only [blockTidy] at ht
    simp only [item, Block.lines, writeItem]
    congr 1
    clear h
    have : ∀ ls : List Str, (∀ l ∈ ls, rstrip l ++ ['\n'] = l) → ls.flatMap (fun l => rstrip l ++ ['\n']) = ls.flatten := by
      intro ls
      induction ls with
      | nil => intro _; rfl
      | cons l ls ih =>
        intro hl
        rw [List.flatMap_cons, List.flatten_cons, hl l (by simp), ih (fun x hx => hl x (by simp [hx]))]
    exact this _ ht
theorem write_blocks (u inc : Str → Option Str) (bs : List Block) (h : allOk bs) (ht : allTidy u bs) :
    writeItems u inc (itemsOf bs) = some (linesOf bs).flatten := by
  match bs with
  | [] => rfl
  | b :: bs =>
    simp only [allOk] at h
    simp only [allTidy] at ht
    simp only [itemsOf, linesOf, writeItems]
    rw [write_block u inc b h.1 ht.1, write_blocks u inc bs h.2 ht.2]
    simp
end

/-- The lines of a file, none of which needs more than one physical line or is continued. -/
def PlainLine (s : Str) : Prop :=
  ∃ t, s = t ++ ['\n'] ∧ ((∃ w, t = '*' :: w ∧ '\n' ∉ w) ∨ (Unbroken t ∧ nest t = some outside) ∨
    ∃ a w, t = a ++ ';' :: w ∧ '\n' ∉ w ∧ Unbroken a ∧ nest a = some outside)

/-- The lines of a file that consists of plain lines are these lines. -/
theorem separate_plain : ∀ ls : List Str, (∀ l ∈ ls, PlainLine l ∧ l.head? ≠ some '+' ∧ l.head? ≠ some '\r') →
    separateLines ls.flatten = ⟨ls, false⟩ := by
  intro ls
  induction ls with
  | nil => intro _; rfl
  | cons l ls ih =>
    intro h
    have hrest := ih (fun x hx => h x (by simp [hx]))
    have hhd : ∀ c, (c = '+' ∨ c = '\r') → ls.flatten.head? ≠ some c := by
      intro c hc
      cases ls with
      | nil => simp
      | cons m ls =>
        obtain ⟨⟨t, ht, _⟩, h2, h3⟩ := h m (by simp)
        cases m with
        | nil => simp at ht
        | cons x m =>
          intro hh
          simp only [List.flatten_cons, List.cons_append, List.head?_cons, Option.some.injEq] at hh
          rcases hc with rfl | rfl
          · apply h2; simp [hh]
          · apply h3; simp [hh]
    obtain ⟨⟨t, rfl, ht⟩, _⟩ := h l (by simp)
    rw [List.flatten_cons, List.append_assoc]
    rcases ht with ⟨w, rfl, hw⟩ | ⟨hu, hn⟩ | ⟨a, w, rfl, hw, hu, hn⟩
    · have := (Props.Lines.C31_comment_line w ls.flatten hw).1
      rw [hrest] at this
      exact this
    · have := Props.Lines.C31_line t ls.flatten hu hn (hhd '+' (by simp)) (hhd '\r' (by simp))
      rw [hrest] at this
      exact this
    · have := (Props.Lines.C31_trailing_comment a w ls.flatten hu hn hw).1
      rw [hrest] at this
      simpa using this

/-- C32: for a file made of tidy lines with well nested blocks, closed by an .END line, loading and saving gives back the same
text, and loading it again the same netlist. -/
theorem C32_load_save (untouched included : Str → Option Str) (bs : List Block) (h : allOk bs) (ht : allTidy untouched bs)
    (e : Str) (he : kindOf e = some .closing) (hte : Tidy e)
    (hp : ∀ l ∈ linesOf bs ++ [e], PlainLine l ∧ l.head? ≠ some '+' ∧ l.head? ≠ some '\r') :
    ∃ items text, separateLines (linesOf bs ++ [e]).flatten = ⟨linesOf bs ++ [e], false⟩ ∧ load false (linesOf bs ++ [e]) = .ok items ∧
      writeItems untouched included items = some text ∧ text = (linesOf bs ++ [e]).flatten := by
  refine ⟨itemsOf bs ++ [.prim e], (linesOf bs ++ [e]).flatten, separate_plain _ hp, ?_, ?_, rfl⟩
  · have := C32_load bs h e he [] (by simp) false
    simpa [comments] using this
  · rw [writeItems_append untouched included _ _ _ e (write_blocks untouched included bs h ht)]
    · simp
    · simp only [writeItems, writeItem]; rw [hte]; simp

/-! A concrete netlist with a nested sub-circuit. -/

def demoBlocks : List Block := [.line "* title\n".toList,
  .subckt ".subckt amp a b\n".toList [.line "R1 a b {1k*(1+x)}\n".toList,
    .subckt ".subckt inner c\n".toList [.line "C1 c 0 1n ; cap\n".toList] ".ends inner\n".toList] ".ends amp\n".toList,
  .line ".tran 1m\n".toList]

example : load false (linesOf demoBlocks ++ [".end\n".toList]) = .ok [.text "* title\n".toList,
    .sub [.prim ".subckt amp a b\n".toList, .comp "R1 a b {1k*(1+x)}\n".toList,
      .sub [.prim ".subckt inner c\n".toList, .comp "C1 c 0 1n ; cap\n".toList, .prim ".ends inner\n".toList], .prim ".ends amp\n".toList],
    .prim ".tran 1m\n".toList, .prim ".end\n".toList] := by
  have := C32_load demoBlocks (by simp only [demoBlocks, allOk, Block.ok]; decide +kernel) ".end\n".toList (by decide +kernel) [] (by simp) false
  rw [this]
  have h1 : kindOf "* title\n".toList = some .text := by decide +kernel
  have h2 : kindOf "R1 a b {1k*(1+x)}\n".toList = some .comp := by decide +kernel
  have h3 : kindOf "C1 c 0 1n ; cap\n".toList = some .comp := by decide +kernel
  have h4 : kindOf ".tran 1m\n".toList = some .other := by decide +kernel
  simp only [demoBlocks, itemsOf, item, h1, h2, h3, h4, comments]
  rfl

example : allOk demoBlocks ∧ allTidy some demoBlocks := by
  constructor
  · simp only [demoBlocks, allOk, Block.ok]; decide +kernel
  · simp only [demoBlocks, allTidy, blockTidy, Tidy]; decide +kernel

/-- A line without brackets, quotes, breaks and comments is plain. -/
theorem plain_simple (t : Str) (h1 : t.head? ≠ some '*') (h2 : ∀ c ∈ t, c ∉ "{}()[]\"\n\r;".toList) : PlainLine (t ++ ['\n']) := by
  refine ⟨t, rfl, Or.inr (Or.inl ⟨⟨h1, ?_⟩, ?_⟩)⟩
  · intro a b c hc hh
    have := h2 c (by rw [hc]; simp)
    rcases hh with rfl | rfl | rfl <;> simp at this
  · unfold nest
    clear h1
    generalize outside = n
    induction t generalizing n with
    | nil => rfl
    | cons c t ih =>
      have hc := h2 c (by simp)
      rw [nestFrom]
      have : next n c = some n := by
        have hd : c ≠ '{' ∧ c ≠ '}' ∧ c ≠ '(' ∧ c ≠ ')' ∧ c ≠ '[' ∧ c ≠ ']' ∧ c ≠ '"' := by
          refine ⟨?_, ?_, ?_, ?_, ?_, ?_, ?_⟩ <;> (rintro rfl; exact hc (by decide))
        unfold next
        simp [hd]
      rw [this]
      exact ih (fun x hx => h2 x (by simp [hx])) n

example : ∃ items text, load false (linesOf [.line "R1 a b 1k\n".toList, .subckt ".subckt s a\n".toList [] ".ends\n".toList] ++ [".end\n".toList]) = .ok items ∧
    writeItems some (fun _ => none) items = some text ∧ text = "R1 a b 1k\n.subckt s a\n.ends\n.end\n".toList := by
  obtain ⟨i, t, _, h1, h2, h3⟩ := C32_load_save some (fun _ => none) [.line "R1 a b 1k\n".toList, .subckt ".subckt s a\n".toList [] ".ends\n".toList]
    (by simp only [allOk, Block.ok]; decide +kernel) (by simp only [allTidy, blockTidy, Tidy]; decide +kernel) ".end\n".toList (by decide +kernel)
    (by unfold Tidy; decide +kernel) (by
      intro l hl
      simp only [linesOf, Block.lines, List.nil_append, List.append_nil, List.cons_append, List.mem_cons, List.not_mem_nil, or_false] at hl
      rcases hl with rfl | rfl | rfl | rfl
      · exact ⟨plain_simple "R1 a b 1k".toList (by decide) (by decide), by decide, by decide⟩
      · exact ⟨plain_simple ".subckt s a".toList (by decide) (by decide), by decide, by decide⟩
      · exact ⟨plain_simple ".ends".toList (by decide) (by decide), by decide, by decide⟩
      · exact ⟨plain_simple ".end".toList (by decide) (by decide), by decide, by decide⟩)
  exact ⟨i, t, h1, h2, h3⟩

end Props.NetTree
