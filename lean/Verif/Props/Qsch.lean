import Verif.Lemmas.Qsch
/-
C37, C38: tag trees of QSpice schematics are read back as written; attributes are read back as set.
-/
namespace Props.Qsch
open Model.Qsch Model.PyStr Lemmas.PyStr Lemmas.Qsch
open Spec.QschTree hiding Str

/-! ### The reading loop on one line -/

theorem loop_char (n : Nat) (c : Char) (r cur : Str) (toks : List Str) (items : List Tag)
    (hc : c ≠ '"' ∧ c ≠ '«' ∧ c ≠ '»' ∧ c ≠ '\n') : loop (n + 1) (c :: r) cur toks items = loop n r (cur ++ [c]) toks items := by
  rw [loop, if_neg hc.2.1, if_neg hc.1, if_neg hc.2.2.1, if_neg hc.2.2.2]

theorem loop_quote (n : Nat) (b r cur : Str) (toks : List Str) (items : List Tag) (hb : ∀ c ∈ b, c ≠ '"') :
    loop (n + 1) ('"' :: b ++ '"' :: r) cur toks items = loop n r (cur ++ ('"' :: b ++ ['"'])) toks items := by
  rw [List.cons_append, loop, if_neg (by decide), if_pos rfl, skipQuote_lit b r hb]
  simp

theorem loop_line (p : Str) (hp : OneLine p) : ∀ (n : Nat) (r cur : Str) (toks : List Str) (items : List Tag), (p ++ r).length < n →
    ∃ m, r.length < m ∧ loop n (p ++ r) cur toks items = loop m r (cur ++ p) toks items := by
  induction hp with
  | nil => intro n r cur toks items h; exact ⟨n, h, by simp⟩
  | char c s hc _ ih =>
    intro n r cur toks items h
    cases n with
    | zero => omega
    | succ n =>
      obtain ⟨m, h1, h2⟩ := ih n r (cur ++ [c]) toks items (by simp at h ⊢; omega)
      refine ⟨m, h1, ?_⟩
      rw [List.cons_append, loop_char n c _ cur toks items hc, h2]
      simp
  | quoted b s hb _ ih =>
    intro n r cur toks items h
    cases n with
    | zero => omega
    | succ n =>
      obtain ⟨m, h1, h2⟩ := ih n r (cur ++ ('"' :: b ++ ['"'])) toks items (by simp at h ⊢; omega)
      refine ⟨m, h1, ?_⟩
      have e : '"' :: b ++ '"' :: s ++ r = '"' :: b ++ '"' :: (s ++ r) := by simp
      rw [e, loop_quote n b _ cur toks items hb, h2]
      simp

theorem loop_newline (n : Nat) (r cur : Str) (toks : List Str) (items : List Tag) :
    loop (n + 1) ('\n' :: r) cur toks items = loop n r [] (if cur = [] then toks else toks ++ smartSplit cur) items := by
  rw [loop, if_neg (by decide), if_neg (by decide), if_neg (by decide), if_pos rfl]

theorem loop_close (n : Nat) (r cur : Str) (toks ts : List Str) (items : List Tag) (h : lastTokens cur = .ok ts) :
    loop (n + 1) ('»' :: r) cur toks items = .ok (.mk (toks ++ ts) items, r) := by
  rw [loop, if_neg (by decide), if_neg (by decide), if_pos rfl, h]

theorem loop_child (n : Nat) (c : Char) (body r cur : Str) (toks : List Str) (items : List Tag) (t : Tag)
    (h : loop n body [] [] [] = .ok (t, c :: r)) :
    loop (n + 1) ('«' :: body) cur toks items = loop n r [] toks (items ++ [t]) := by
  rw [loop, if_pos rfl, h]

theorem lastTokens_blanks (n : Nat) : lastTokens (List.replicate n ' ') = .ok [] := by
  unfold lastTokens
  rw [if_neg, smartSplit_blanks]
  rw [contains_colon]
  rintro ⟨a, b, h⟩
  have : ':' ∈ List.replicate n ' ' := by rw [← h]; simp
  exact absurd (List.eq_of_mem_replicate this) (by decide)

theorem lastTokens_leaf (toks : List Str) (h : LeafTokens toks) : lastTokens (join toks) = .ok toks ∧ OneLine (join toks) := by
  unfold lastTokens
  rcases h with ⟨h1, h2⟩ | ⟨l, t, rfl, h1, h2, h3⟩
  · rw [if_neg (by rw [contains_colon, join_eq]; exact h2), smartSplit_tokens _ h1]
    exact ⟨rfl, oneLine_join _ h1⟩
  · have e : join [l ++ [':'], t] = l ++ [':', ' '] ++ t := by simp [join]
    rw [e, if_pos (by rw [contains_colon]; exact ⟨l, t, rfl⟩), splitColon_lit l t h1 h2]
    exact ⟨rfl, h3⟩

/-! ### C37: round trip -/

theorem header_line (n : Nat) (toks : List Str) (r : Str) (ht : ∀ w ∈ toks, Token w) (h : (join toks ++ '\n' :: r).length < n) :
    ∃ m, r.length < m ∧ loop n (join toks ++ '\n' :: r) [] [] [] = loop m r [] toks [] := by
  obtain ⟨m, h1, h2⟩ := loop_line _ (oneLine_join toks ht) n ('\n' :: r) [] [] [] h
  cases m with
  | zero => omega
  | succ m =>
    refine ⟨m, by simpa using h1, ?_⟩
    rw [h2, loop_newline]
    congr 1
    cases toks with
    | nil => rfl
    | cons w ws =>
      have hs := smartSplit_tokens (w :: ws) ht
      rw [List.nil_append]
      rw [if_neg, List.nil_append, hs]
      intro hj
      rw [hj] at hs
      exact absurd hs (by simp [smartSplit_nil])

/-- What is between the tag marks. -/
def body (level : Nat) : Tag → Str
  | .mk toks [] => join toks
  | .mk toks (t :: ts) => join toks ++ '\n' :: outAll (level + 1) (t :: ts) ++ indent level

theorem out_eq (level : Nat) (t : Tag) : t.out level = indent level ++ '«' :: (body level t ++ ['»', '\n']) := by
  obtain ⟨toks, items⟩ := t
  cases items with
  | nil => simp [Tag.out, body]
  | cons t ts => simp [Tag.out, body]

def RoundTrip (t : Tag) : Prop := ∀ (level n : Nat) (r : Str), (body level t ++ '»' :: r).length < n →
    loop n (body level t ++ '»' :: r) [] [] [] = .ok (t, r)

theorem children (ts : List Tag) (h : ∀ t ∈ ts, RoundTrip t) : ∀ (level k n : Nat) (r : Str) (toks : List Str) (items : List Tag),
    (outAll level ts ++ (indent k ++ '»' :: r)).length < n →
    loop n (outAll level ts ++ (indent k ++ '»' :: r)) [] toks items = .ok (.mk toks (items ++ ts), r) := by
  induction ts with
  | nil =>
    intro level k n r toks items hn
    rw [outAll, List.nil_append] at hn ⊢
    obtain ⟨m, h1, h2⟩ := loop_line _ (oneLine_blanks (2 * k)) n ('»' :: r) [] toks items hn
    cases m with
    | zero => omega
    | succ m =>
      show loop n (List.replicate (2 * k) ' ' ++ '»' :: r) [] toks items = _
      rw [h2, List.nil_append, loop_close _ _ _ _ _ _ (lastTokens_blanks _)]
      simp
  | cons t ts ih =>
    intro level k n r toks items hn
    have e : outAll level (t :: ts) ++ (indent k ++ '»' :: r) =
        List.replicate (2 * level) ' ' ++ '«' :: (body level t ++ '»' :: '\n' :: (outAll level ts ++ (indent k ++ '»' :: r))) := by
      rw [outAll, out_eq]; simp [indent]
    rw [e] at hn ⊢
    obtain ⟨m, h1, h2⟩ := loop_line _ (oneLine_blanks (2 * level)) n _ [] toks items hn
    rw [h2]
    cases m with
    | zero => omega
    | succ m =>
      have hm : (body level t ++ '»' :: '\n' :: (outAll level ts ++ (indent k ++ '»' :: r))).length < m := by
        simpa using h1
      rw [loop_child m '\n' _ _ _ _ _ t (h t List.mem_cons_self level m _ hm)]
      rw [ih (fun t ht => h t (List.mem_cons_of_mem _ ht)) level k m r toks (items ++ [t]) (by simp at hm ⊢; omega)]
      simp

theorem roundTrip (t : Tag) (h : WellFormed t) : RoundTrip t := by
  induction h with
  | leaf toks h =>
    intro level n r hn
    obtain ⟨h1, h2⟩ := lastTokens_leaf toks h
    rw [body] at hn ⊢
    obtain ⟨m, h3, h4⟩ := loop_line _ h2 n ('»' :: r) [] [] [] hn
    cases m with
    | zero => omega
    | succ m => rw [h4, List.nil_append, loop_close _ _ _ _ _ _ h1]; rfl
  | node toks items hne ht hi ih =>
    intro level n r hn
    cases items with
    | nil => exact absurd rfl hne
    | cons t ts =>
      have e : body level (.mk toks (t :: ts)) ++ '»' :: r =
          join toks ++ '\n' :: (outAll (level + 1) (t :: ts) ++ (indent level ++ '»' :: r)) := by simp [body]
      rw [e] at hn ⊢
      obtain ⟨m, h1, h2⟩ := header_line n toks _ ht hn
      rw [h2, children _ ih (level + 1) level m r toks [] h1]
      simp

/-- **C37.** A well formed tree, written at any level of indentation and followed by anything, is read back as the same tree
and reading stops right after its closing mark. -/
theorem C37_round_trip (t : Tag) (h : WellFormed t) (level : Nat) (rest : Str) :
    parse ((t.out level ++ rest).drop (2 * level)) = .ok (t, '\n' :: rest) := by
  have e : (t.out level ++ rest).drop (2 * level) = '«' :: (body level t ++ '»' :: '\n' :: rest) := by
    rw [out_eq, indent, List.append_assoc, List.drop_left' (by simp)]
    simp
  rw [e]
  show loop _ _ [] [] [] = _
  exact roundTrip t h level _ _ (Nat.lt_succ_self _)

/-- **C37.** A saved schematic file is read back as the tree that was saved. -/
theorem C37_file (t : Tag) (h : WellFormed t) : readFile (fileText t) = some (.ok (t, ['\n', '\n'])) := by
  have e : fileText t = header ++ (t.out 0 ++ ['\n']) := by simp [fileText]
  unfold readFile
  rw [e, List.take_left' (show header.length = 4 from rfl), List.drop_left' (show header.length = 4 from rfl), if_pos rfl]
  exact congrArg some (C37_round_trip t h 0 ['\n'])

/-! ### C37: what is read can be written and read again -/

/-- The token lists the reader can produce. -/
def Shape (toks : List Str) : Prop := (∀ w ∈ toks, Token w) ∨
  ∃ (ws : List Str) (l x : Str), toks = ws ++ [l ++ [':'], x] ∧ (∀ w ∈ ws, Token w) ∧ OneLine (l ++ [':', ' '] ++ x)

inductive Parsed : Tag → Prop
  | mk (toks : List Str) (items : List Tag) (h : Shape toks) (hi : ∀ t ∈ items, Parsed t) : Parsed (.mk toks items)

theorem lastTokens_shape (cur : Str) (hc : OneLine cur) (toks ts : List Str) (ht : ∀ w ∈ toks, Token w) (h : lastTokens cur = .ok ts) :
    Shape (toks ++ ts) := by
  unfold lastTokens at h
  by_cases hh : contains [':', ' '] cur = true
  · rw [if_pos hh] at h
    have hj := splitColon_join cur
    cases h1 : splitColon cur with
    | nil => rw [h1] at h; cases h
    | cons a l1 =>
      cases l1 with
      | nil => rw [h1] at h; cases h
      | cons b l2 =>
        cases l2 with
        | nil =>
          rw [h1] at h hj
          obtain rfl := Except.ok.inj h
          have e : cur = a ++ [':', ' '] ++ b := by rw [← hj]; simp [List.intercalate]
          exact Or.inr ⟨toks, a, b, rfl, ht, e ▸ hc⟩
        | cons c l3 => rw [h1] at h; cases h
  · rw [if_neg hh] at h
    obtain rfl := Except.ok.inj h
    refine Or.inl (fun w hw => ?_)
    rcases List.mem_append.1 hw with hw | hw
    · exact ht w hw
    · exact smartSplit_token cur hc w hw

theorem loop_parsed (n : Nat) : ∀ (s cur : Str) (toks : List Str) (items : List Tag) (t : Tag) (r : Str),
    OneLine cur → (∀ w ∈ toks, Token w) → (∀ t ∈ items, Parsed t) → loop n s cur toks items = .ok (t, r) → Parsed t := by
  induction n with
  | zero => intro s cur toks items t r _ _ _ h; cases h
  | succ n ih =>
    intro s cur toks items t r hc ht hi h
    cases s with
    | nil => cases h
    | cons c s =>
      rw [loop] at h
      by_cases h1 : c = '«'
      · rw [if_pos h1] at h
        cases hl : loop n s [] [] [] with
        | error e => rw [hl] at h; cases h
        | ok p =>
          obtain ⟨child, rest⟩ := p
          rw [hl] at h
          cases rest with
          | nil => cases h
          | cons d rest =>
            refine ih rest [] toks (items ++ [child]) t r .nil ht ?_ h
            intro x hx
            rcases List.mem_append.1 hx with hx | hx
            · exact hi x hx
            · obtain rfl := List.mem_singleton.1 hx
              exact ih s [] [] [] x _ .nil (by simp) (by simp) hl
      rw [if_neg h1] at h
      by_cases h2 : c = '"'
      · rw [if_pos h2] at h
        cases hq : skipQuote s with
        | none => rw [hq] at h; cases h
        | some p =>
          obtain ⟨q, s'⟩ := p
          rw [hq] at h
          refine ih s' _ toks items t r ?_ ht hi h
          rw [List.append_assoc]
          exact oneLine_append hc (.quoted q [] (skipQuote_some s q s' hq).2 .nil)
      rw [if_neg h2] at h
      by_cases h3 : c = '»'
      · rw [if_pos h3] at h
        cases hl : lastTokens cur with
        | error e => rw [hl] at h; cases h
        | ok ts =>
          rw [hl] at h
          obtain ⟨rfl, rfl⟩ := Prod.mk.inj (Except.ok.inj h)
          exact .mk _ _ (lastTokens_shape cur hc toks ts ht hl) hi
      rw [if_neg h3] at h
      by_cases h4 : c = '\n'
      · rw [if_pos h4] at h
        refine ih s [] _ items t r .nil ?_ hi h
        split_ifs
        · exact ht
        · intro w hw
          rcases List.mem_append.1 hw with hw | hw
          · exact ht w hw
          · exact smartSplit_token cur hc w hw
      rw [if_neg h4] at h
      exact ih s _ toks items t r (oneLine_append hc (.char c [] ⟨h2, h1, h3, h4⟩ .nil)) ht hi h

theorem join_tail (ws : List Str) (a b : Str) : ∃ p : Str, join (ws ++ [a, b]) = p ++ (a ++ ' ' :: b) := by
  induction ws with
  | nil => exact ⟨[], rfl⟩
  | cons w ws ih =>
    obtain ⟨p, hp⟩ := ih
    cases ws with
    | nil => exact ⟨w ++ [' '], by simp [join]⟩
    | cons x ws => exact ⟨w ++ ' ' :: p, by rw [List.cons_append, List.cons_append, join, ← List.cons_append, hp]; simp⟩

theorem shape_leaf (toks : List Str) (hs : Shape toks)
    (h : ¬ HasColon (List.intercalate [' '] toks) ∨ ∃ l x : Str, toks = [l ++ [':'], x] ∧ ¬ HasColon l ∧ ¬ HasColon x) :
    LeafTokens toks := by
  rcases h with h | ⟨l, x, rfl, h1, h2⟩
  · rcases hs with hs | ⟨ws, l, x, rfl, _, _⟩
    · exact Or.inl ⟨hs, h⟩
    · exfalso
      apply h
      rw [← join_eq]
      obtain ⟨p, hp⟩ := join_tail ws (l ++ [':']) x
      rw [hp]
      exact ⟨p ++ l, x, by simp⟩
  · refine Or.inr ⟨l, x, rfl, h1, h2, ?_⟩
    have e : l ++ [':', ' '] ++ x = join [l ++ [':'], x] := by simp [join]
    rcases hs with hs | ⟨ws, l', x', hw, _, hl⟩
    · rw [e]; exact oneLine_join _ hs
    · cases ws with
      | nil =>
        simp only [List.nil_append, List.cons.injEq, and_true] at hw
        obtain ⟨hw1, rfl⟩ := hw
        obtain rfl : l = l' := by simpa using hw1
        exact hl
      | cons w ws => exact absurd (congrArg List.length hw) (by simp)

theorem parsed_tidy (t : Tag) (hp : Parsed t) (ht : Tidy t) : WellFormed t := by
  induction ht with
  | leaf toks h =>
    cases hp with
    | mk _ _ hs _ => exact .leaf toks (shape_leaf toks hs h)
  | node toks items hne ht hi ih =>
    cases hp with
    | mk _ _ hs hpi => exact .node toks items hne ht (fun t htm => ih t htm (hpi t htm))

/-- **C37.** Load, save, load: whatever file was read, if free text after a colon only occurred in childless tags of the form
`label: text`, then writing the tree and reading it again gives the same tree. -/
theorem C37_load_save_load (s : Str) (t : Tag) (rest : Str) (h : readFile s = some (.ok (t, rest))) (ht : Tidy t) :
    readFile (fileText t) = some (.ok (t, ['\n', '\n'])) := by
  apply C37_file
  apply parsed_tidy t _ ht
  unfold readFile at h
  split_ifs at h with h1
  have h := Option.some.inj h
  unfold parse at h
  split at h
  · exact loop_parsed _ _ _ _ _ _ _ .nil (by simp) (by simp) h
  · cases h

/-- Non-vacuity: a schematic with a component, its symbol, pins, quoted texts holding tag marks and line breaks, and labels. -/
def sampleTree : Tag :=
  .mk ["schematic".toList]
    [.mk ["component".toList, "(0,100)".toList, "0".toList]
      [.mk ["symbol".toList, "R".toList]
        [.mk ["type:".toList, "R".toList] [],
         .mk ["library file:".toList, "my lib.txt".toList] [],
         .mk ["text".toList, "(1,2)".toList, "\"a » b\n« c\"".toList] []]],
     .mk ["wire".toList, "(0,0)".toList, "(0,100)".toList, "\"N01\"".toList] []]

theorem infix_iff (s : Str) : HasColon s ↔ contains [':', ' '] s = true := (contains_colon s).symm

theorem token_word (w : Str) (h : (w ≠ [] ∧ w.all (fun c => !isSpace c && c != '"' && c != '«' && c != '»')) = true) : Token w := by
  simp only [eq_iff_iff, iff_true, List.all_eq_true, Bool.and_eq_true, Bool.not_eq_true', bne_iff_ne, ne_eq] at h
  exact .word w h.1 (fun c hc => by obtain ⟨⟨⟨a, b⟩, c⟩, d⟩ := h.2 c hc; exact ⟨a, b, c, d⟩)

theorem sample_wf : WellFormed sampleTree := by
  have tok : ∀ w ∈ ["schematic".toList, "component".toList, "(0,100)".toList, "0".toList, "symbol".toList, "R".toList, "text".toList,
      "(1,2)".toList, "wire".toList, "(0,0)".toList], Token w := by
    intro w hw
    apply token_word
    revert w
    decide +kernel
  have q1 : Token "\"a » b\n« c\"".toList := .quoted "a » b\n« c".toList (by decide +kernel)
  have q2 : Token "\"N01\"".toList := .quoted "N01".toList (by decide +kernel)
  refine .node _ _ (by simp) (by intro w hw; exact tok w (by revert w; decide +kernel)) ?_
  intro t ht
  rcases List.mem_cons.1 ht with rfl | ht
  · refine .node _ _ (by simp) (by intro w hw; exact tok w (by revert w; decide +kernel)) ?_
    intro t ht
    obtain rfl := List.mem_singleton.1 ht
    refine .node _ _ (by simp) (by intro w hw; exact tok w (by revert w; decide +kernel)) ?_
    intro t ht
    simp only [List.mem_cons, List.not_mem_nil, or_false] at ht
    rcases ht with rfl | rfl | rfl
    · refine .leaf _ (Or.inr ⟨"type".toList, "R".toList, by decide +kernel, ?_, ?_, ?_⟩)
      · rw [infix_iff]; decide +kernel
      · rw [infix_iff]; decide +kernel
      · exact oneLine_plain _ (by decide +kernel)
    · refine .leaf _ (Or.inr ⟨"library file".toList, "my lib.txt".toList, by decide +kernel, ?_, ?_, ?_⟩)
      · rw [infix_iff]; decide +kernel
      · rw [infix_iff]; decide +kernel
      · exact oneLine_plain _ (by decide +kernel)
    · refine .leaf _ (Or.inl ⟨?_, ?_⟩)
      · intro w hw
        simp only [List.mem_cons, List.not_mem_nil, or_false] at hw
        rcases hw with rfl | rfl | rfl
        · exact tok _ (by decide +kernel)
        · exact tok _ (by decide +kernel)
        · exact q1
      · rw [infix_iff]; decide +kernel
  · obtain rfl := List.mem_singleton.1 ht
    refine .leaf _ (Or.inl ⟨?_, ?_⟩)
    · intro w hw
      simp only [List.mem_cons, List.not_mem_nil, or_false] at hw
      rcases hw with rfl | rfl | rfl | rfl
      · exact tok _ (by decide +kernel)
      · exact tok _ (by decide +kernel)
      · exact tok _ (by decide +kernel)
      · exact q2
    · rw [infix_iff]; decide +kernel

example : readFile (fileText sampleTree) = some (.ok (sampleTree, ['\n', '\n'])) := C37_file _ sample_wf

/-! ### C37: where the unchanged code does not give back what was written -/

/-- **C37, limit.** A childless tag whose free text itself contains a colon and a blank cannot be read at all: opening the
saved schematic raises ValueError. -/
theorem C37_two_colons (label a b rest : Str) (hl : ¬ HasColon label) (ha : ¬ HasColon a) (hb : ¬ HasColon b)
    (h1 : OneLine (label ++ [':', ' '] ++ a ++ [':', ' '] ++ b)) :
    parse ((Tag.mk [label ++ [':'], a ++ [':', ' '] ++ b] []).out 0 ++ rest) = .error .twoColons := by
  have e : (Tag.mk [label ++ [':'], a ++ [':', ' '] ++ b] []).out 0 ++ rest =
      '«' :: ((label ++ [':', ' '] ++ a ++ [':', ' '] ++ b) ++ '»' :: '\n' :: rest) := by
    simp [Tag.out, join, indent]
  rw [e]
  show loop _ _ [] [] [] = _
  obtain ⟨m, h3, h4⟩ := loop_line _ h1 _ ('»' :: '\n' :: rest) [] [] [] (Nat.lt_succ_self _)
  rw [h4]
  cases m with
  | zero => omega
  | succ m =>
    rw [loop, if_neg (by decide), if_neg (by decide), if_pos rfl, List.nil_append]
    have : lastTokens (label ++ [':', ' '] ++ a ++ [':', ' '] ++ b) = .error .twoColons := by
      unfold lastTokens
      rw [if_pos (by rw [contains_colon]; exact ⟨label, a ++ [':', ' '] ++ b, by simp⟩)]
      have hs : splitColon (label ++ [':', ' '] ++ a ++ [':', ' '] ++ b) = [label, a, b] := by
        have e2 : label ++ [':', ' '] ++ a ++ [':', ' '] ++ b = label ++ [':', ' '] ++ (a ++ [':', ' '] ++ b) := by simp
        rw [e2]
        exact splitColon_lit2 label _ _ hl (splitColon_lit a b ha hb)
      rw [hs]
    rw [this]

/-- **C37, limit.** A text of the schematic that contains a colon followed by a blank is torn into two tokens when the file is
read, so that its attributes (position, comment flag, text) are lost. `pre` is what precedes the quoted text. -/
theorem C37_colon_in_text (pre a b rest : Str) (hp : OneLine pre) (hp' : ¬ HasColon (pre ++ '"' :: a)) (hb : ¬ HasColon b)
    (hq : (∀ c ∈ a, c ≠ '"') ∧ ∀ c ∈ b, c ≠ '"') :
    ∃ t : Tag, parse ('«' :: pre ++ '"' :: a ++ [':', ' '] ++ b ++ ['"', '»'] ++ rest) = .ok (t, rest) ∧
      t.tokens = [pre ++ '"' :: a ++ [':'], b ++ ['"']] := by
  have e : '«' :: pre ++ '"' :: a ++ [':', ' '] ++ b ++ ['"', '»'] ++ rest =
      '«' :: ((pre ++ ('"' :: (a ++ [':', ' '] ++ b) ++ ['"'])) ++ '»' :: rest) := by simp
  have hl : OneLine (pre ++ ('"' :: (a ++ [':', ' '] ++ b) ++ ['"'])) := by
    refine oneLine_append hp (.quoted _ [] ?_ .nil)
    intro c hc
    rcases List.mem_append.1 hc with hc | hc
    · rcases List.mem_append.1 hc with hc | hc
      · exact hq.1 c hc
      · have hc' : c ∈ [':', ' '] := hc
        clear * - hc'
        revert c; decide
    · exact hq.2 c hc
  refine ⟨.mk [pre ++ '"' :: a ++ [':'], b ++ ['"']] [], ?_, rfl⟩
  rw [e]
  show loop _ _ [] [] [] = _
  obtain ⟨m, h3, h4⟩ := loop_line _ hl _ ('»' :: rest) [] [] [] (Nat.lt_succ_self _)
  rw [h4]
  cases m with
  | zero => omega
  | succ m =>
    refine loop_close m rest _ [] _ [] ?_
    have e2 : [] ++ (pre ++ ('"' :: (a ++ [':', ' '] ++ b) ++ ['"'])) = (pre ++ '"' :: a) ++ [':', ' '] ++ (b ++ ['"']) := by simp
    rw [e2]
    have hb' : ¬ HasColon (b ++ ['"']) := by
      rintro ⟨u, v, h⟩
      rcases List.eq_nil_or_concat v with rfl | ⟨v', x, rfl⟩
      · have := congrArg List.getLast? h
        simp at this
      · apply hb
        refine ⟨u, v', ?_⟩
        have : (u ++ [':', ' '] ++ v') ++ [x] = b ++ ['"'] := by rw [← h]; simp
        exact (List.append_inj' this rfl).1
    unfold lastTokens
    rw [if_pos (by rw [contains_colon]; exact ⟨_, _, rfl⟩), splitColon_lit _ _ hp' hb']

set_option maxRecDepth 4000 in
/-- Non-vacuity, with the text of a comment as QSpice writes it: its comment flag (attribute 4) cannot be read. -/
example : ∃ t : Tag, parse "«text (0,0) 1 7 0 0x1000000 -1 -1 \"note: check\"»".toList = .ok (t, []) ∧ t.getAttr 4 = none :=
  ⟨.mk ["text (0,0) 1 7 0 0x1000000 -1 -1 \"note:".toList, "check\"".toList] [], by rfl, by rfl⟩

/-- **C37, limit.** What stands on the line of a child tag, before it, is dropped by the reader; what follows its closing mark
directly is skipped. -/
theorem C37_before_child : (∃ t : Tag, parse "«a b\nc «d»\n»".toList = .ok (t, []) ∧ t.tokens = ["a".toList, "b".toList]) ∧
    parse "«a «b»»".toList = .error .missingClose :=
  ⟨⟨.mk ["a".toList, "b".toList] [.mk ["d".toList] []], by rfl, by rfl⟩, by rfl⟩

/-- **C37, limit.** A tag with labelled texts on two lines is read, but the file saved from it cannot be read any more. -/
theorem C37_not_stable : ∃ t : Tag, parse "«a: b\nc: d»".toList = .ok (t, []) ∧ parse (t.out 0) = .error .twoColons :=
  ⟨.mk ["a:".toList, "b".toList, "c:".toList, "d".toList] [], by rfl, by rfl⟩

/-! ### C38: attributes -/

theorem setAttr_some (t t' : Tag) (i : Nat) (v : Val) (h : t.setAttr i v = some t') :
    ∃ w, v.token = some w ∧ i < t.tokens.length ∧ t' = .mk (t.tokens.set i w) t.items := by
  unfold Tag.setAttr at h
  cases hv : v.token with
  | none => rw [hv] at h; cases h
  | some w =>
    rw [hv] at h
    simp only at h
    split_ifs at h with hi
    exact ⟨w, rfl, hi, (Option.some.inj h).symm⟩

theorem getAttr_set (t t' : Tag) (i : Nat) (v : Val) (w : Str) (hv : v.token = some w) (h : t.setAttr i v = some t') :
    t'.getAttr i = getToken w := by
  obtain ⟨w', h1, h2, rfl⟩ := setAttr_some t t' i v h
  rw [hv] at h1
  obtain rfl := Option.some.inj h1
  simp [Tag.getAttr, Tag.tokens] at h2 ⊢
  simp [h2]

theorem ends_ne (w : Str) (c : Char) (h : c ∉ w) : w.head? ≠ some c ∧ w.getLast? ≠ some c := by
  refine ⟨fun hh => h (List.mem_of_head? hh), fun hh => h (List.mem_of_getLast? hh)⟩

/-- **C38.** An integer is read back as set. -/
theorem C38_set_get_int (t t' : Tag) (i : Nat) (n : Int) (h : t.setAttr i (.int n) = some t') : t'.getAttr i = some (.int n) := by
  rw [getAttr_set t t' i _ _ rfl h]
  have hp := showInt_props n
  unfold getToken
  rw [if_neg, if_neg, if_neg, parseInt_show]
  · exact fun hh => (ends_ne _ '"' (fun hm => (hp _ hm).2.2.1 rfl)).1 hh.1
  · intro hh
    have : 'x' ∈ showInt n := List.mem_of_mem_take (i := 2) (by rw [hh]; simp)
    exact (hp _ this).2.2.2.2.2.1 rfl
  · exact fun hh => (ends_ne _ '(' (fun hm => (hp _ hm).2.2.2.1 rfl)).1 hh.1

/-- **C38.** A pair of coordinates is read back as set. -/
theorem C38_set_get_pair (t t' : Tag) (i : Nat) (a b : Int) (h : t.setAttr i (.pair a b) = some t') :
    t'.getAttr i = some (.tuple [a, b]) := by
  rw [getAttr_set t t' i _ _ rfl h]
  unfold getToken
  have e : '(' :: showInt a ++ ',' :: showInt b ++ [')'] = '(' :: ((showInt a ++ ',' :: showInt b) ++ [')']) := by simp
  rw [e, if_pos ⟨rfl, by rw [← List.cons_append, List.getLast?_concat]⟩]
  rw [List.drop_succ_cons, List.drop_zero, List.dropLast_concat,
    splitOn_cons ',' _ _ (fun c hc => (showInt_props a c hc).2.1), splitOn_clean ',' _ (fun c hc => (showInt_props b c hc).2.1)]
  simp [parseInt_show, allSome]

/-- **C38.** A text that does not start with 0x is read back as set. -/
theorem C38_set_get_str (t t' : Tag) (i : Nat) (s : Str) (hs : s.take 2 ≠ ['0', 'x']) (h : t.setAttr i (.str s) = some t') :
    t'.getAttr i = some (.text s) := by
  rw [getAttr_set t t' i (.str s) ('"' :: s ++ ['"']) (by simp [Val.token, hs]) h]
  unfold getToken
  rw [if_neg (by simp), if_neg (by simp), if_pos ⟨rfl, by rw [List.getLast?_concat]⟩]
  simp

/-- **C38, limit.** A text starting with 0x comes back as a number, or cannot be read. -/
theorem C38_hex_text : (∃ t', (Tag.mk [["text".toList]].flatten []).setAttr 0 (.str "0x1F".toList) = some t' ∧ t'.getAttr 0 = some (.int 31)) ∧
    ∃ t', (Tag.mk [["text".toList]].flatten []).setAttr 0 (.str "0xyz".toList) = some t' ∧ t'.getAttr 0 = none :=
  ⟨⟨_, rfl, by decide +kernel⟩, ⟨_, rfl, by decide +kernel⟩⟩

/-- **C38.** Setting one attribute changes no other attribute, and neither the children nor the number of attributes. -/
theorem C38_frame (t t' : Tag) (i : Nat) (v : Val) (h : t.setAttr i v = some t') :
    (∀ j, j ≠ i → t'.getAttr j = t.getAttr j) ∧ t'.items = t.items ∧ t'.tokens.length = t.tokens.length := by
  obtain ⟨w, _, _, rfl⟩ := setAttr_some t t' i v h
  refine ⟨fun j hj => ?_, rfl, by simp [Tag.tokens]⟩
  simp [Tag.getAttr, Tag.tokens, List.getElem?_set_ne (Ne.symm hj)]

/-- **C38.** Integers, pairs and texts are always accepted for an existing attribute. -/
theorem C38_accepted (t : Tag) (i : Nat) (v : Val) (hi : i < t.tokens.length) (hv : v ≠ .other) : ∃ t', t.setAttr i v = some t' := by
  unfold Tag.setAttr
  cases v with
  | other => exact absurd rfl hv
  | int n => exact ⟨_, if_pos hi⟩
  | str s => exact ⟨_, if_pos hi⟩
  | pair a b => exact ⟨_, if_pos hi⟩

/-! ### C38: edits survive saving -/

theorem token_of_val (v : Val) (w : Str) (h : v.token = some w) (hv : ∀ s, v = .str s → '"' ∉ s ∧ s.take 2 ≠ ['0', 'x']) : Token w := by
  have num : ∀ n : Int, ∀ c ∈ showInt n, isSpace c = false ∧ c ≠ '"' ∧ c ≠ '«' ∧ c ≠ '»' := by
    intro n c hc
    obtain ⟨h1, _, h3, _, _, _, h7, h8, _⟩ := showInt_props n c hc
    exact ⟨h1, h3, h7, h8⟩
  cases v with
  | other => cases h
  | int n =>
    obtain rfl := Option.some.inj h
    exact .word _ (showInt_ne n) (num n)
  | str s =>
    obtain ⟨h1, h2⟩ := hv s rfl
    obtain rfl : '"' :: s ++ ['"'] = w := by simpa [Val.token, h2] using h
    exact .quoted s (fun c hc hq => h1 (hq ▸ hc))
  | pair a b =>
    obtain rfl := Option.some.inj h
    refine .word _ (by simp) ?_
    intro c hc
    have : c = '(' ∨ c ∈ showInt a ∨ c = ',' ∨ c ∈ showInt b ∨ c = ')' := by simpa [or_assoc] using hc
    rcases this with rfl | hc | rfl | hc | rfl
    · decide
    · exact num a c hc
    · decide
    · exact num b c hc
    · decide

/-- **C38.** Editing an attribute of a well formed tag with an integer, a pair, or a text without quotes keeps it well formed, so
the edit is read back from the saved file (C37_round_trip); a childless tag must not get a colon followed by a blank. -/
theorem C38_edit_survives_save (t t' : Tag) (i : Nat) (v : Val) (ht : WellFormed t) (h : t.setAttr i v = some t')
    (hv : ∀ s, v = .str s → '"' ∉ s ∧ s.take 2 ≠ ['0', 'x']) (htok : ∀ w ∈ t.tokens, Token w)
    (hc : t.items = [] → ¬ HasColon (List.intercalate [' '] t'.tokens)) (level : Nat) (rest : Str) :
    parse ((t'.out level ++ rest).drop (2 * level)) = .ok (t', '\n' :: rest) := by
  apply C37_round_trip
  obtain ⟨w, h1, h2, rfl⟩ := setAttr_some t t' i v h
  have hw := token_of_val v w h1 hv
  have hall : ∀ x ∈ t.tokens.set i w, Token x := by
    intro x hx
    rcases List.mem_or_eq_of_mem_set hx with hx | rfl
    · exact htok x hx
    · exact hw
  cases ht with
  | leaf toks hl => exact .leaf _ (Or.inl ⟨hall, hc rfl⟩)
  | node toks items hne hn hi => exact .node _ _ hne hall hi

/-- Non-vacuity: the value of the second text attribute. -/
example : ∃ t', (Tag.mk ["text".toList, "(1,2)".toList, "\"1k\"".toList] []).setAttr 2 (.str "2 k".toList) = some t' ∧
    parse (t'.out 0) = .ok (t', ['\n']) := by
  have tok : ∀ w ∈ ["text".toList, "(1,2)".toList, "\"1k\"".toList], Token w := by
    intro w hw
    simp only [List.mem_cons, List.not_mem_nil, or_false] at hw
    rcases hw with rfl | rfl | rfl
    · exact token_word _ (by decide +kernel)
    · exact token_word _ (by decide +kernel)
    · exact .quoted "1k".toList (by decide +kernel)
  refine ⟨_, rfl, ?_⟩
  have := C38_edit_survives_save (.mk ["text".toList, "(1,2)".toList, "\"1k\"".toList] []) _ 2 (.str "2 k".toList) ?_ rfl ?_ ?_ ?_ 0 []
  · simpa using this
  · exact .leaf _ (Or.inl ⟨tok, by rw [infix_iff]; decide +kernel⟩)
  · rintro s ⟨⟩
    decide +kernel
  · exact tok
  · intro _
    rw [infix_iff]; decide +kernel

/-- **C38, limit.** A text with quotes is read back from memory, but not from the saved file. -/
theorem C38_quotes_lost : ∃ t' : Tag, (Tag.mk ["text".toList] []).setAttr 0 (.str "a\"b".toList) = some t' ∧
    t'.getAttr 0 = some (.text "a\"b".toList) ∧ parse (t'.out 0) = .error .openQuote :=
  ⟨.mk ["\"a\"b\"".toList] [], by rfl, by rfl, by rfl⟩

/-- **C38.** set_position with an integer angle writes the position and the angle in steps of 45 degrees (plus 8 when mirrored). -/
theorem C38_set_position (t : Tag) (x y d : Int) (mirror : Bool) (h : 2 < t.tokens.length) :
    let r := setPosition t x y (.int d) mirror
    r.2 = false ∧ r.1.getAttr 1 = some (.tuple [x, y]) ∧ r.1.getAttr 2 = some (.int ((d % 360) / 45 + if mirror then 8 else 0)) ∧
    ∀ j, j ≠ 1 → j ≠ 2 → r.1.getAttr j = t.getAttr j := by
  obtain ⟨t1, h1⟩ := C38_accepted t 1 (.pair x y) (by omega) (by simp)
  have hl := (C38_frame t t1 1 _ h1).2.2
  obtain ⟨t2, h2⟩ := C38_accepted t1 2 (.int ((d % 360) / 45 + if mirror then 8 else 0)) (by omega) (by simp)
  have e : setPosition t x y (.int d) mirror = (t2, false) := by
    unfold setPosition
    rw [h1]
    simp only
    rw [h2]
  rw [e]
  refine ⟨rfl, ?_, C38_set_get_int _ _ _ _ h2, ?_⟩
  · show t2.getAttr 1 = _
    rw [(C38_frame t1 t2 2 _ h2).1 1 (by omega), C38_set_get_pair _ _ _ _ _ h1]
  · intro j hj1 hj2
    show t2.getAttr j = _
    rw [(C38_frame t1 t2 2 _ h2).1 j hj2, (C38_frame t t1 1 _ h1).1 j hj1]

/-- **C38, limit.** set_position with a member of ERotation always raises, after the position has been changed in the tag. -/
theorem C38_set_position_enum (t : Tag) (x y : Int) (deg : Nat) (mirror : Bool) (h : 2 < t.tokens.length) :
    (setPosition t x y (.enum deg) mirror).2 = true ∧ (setPosition t x y (.enum deg) mirror).1.getAttr 1 = some (.tuple [x, y]) := by
  obtain ⟨t1, h1⟩ := C38_accepted t 1 (.pair x y) (by omega) (by simp)
  have e : setPosition t x y (.enum deg) mirror = (t1, true) := by
    unfold setPosition
    rw [h1]
    rfl
  rw [e]
  exact ⟨rfl, C38_set_get_pair _ _ _ _ _ h1⟩

end Props.Qsch
