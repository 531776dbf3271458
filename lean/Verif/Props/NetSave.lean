import Verif.Model.NetSave
import Verif.Spec.NetSave
import Verif.Props.NetTree
import Verif.Props.CompLine
import Verif.Props.CompShort
/-
C32: saving a netlist with its components and included files.
-/
namespace Props.NetSave
open Model.NetSave Model.NetTree Model.Regex Lemmas.Regex Model.CompLine Lemmas.CompLine
open Model.PyStr (isSpace strip rstrip)
open Model.Params (PV)
open Props.Params (NameOk)
open Props.NetTree (item itemsOf PlainLine)
open Spec.NetBlocks Spec.NetSave
open Spec.CompLine (Line Short Shape ShortKind)

/-! ### The name of the included file -/

theorem go_ci (c : Char) (k : St → Option St) (s : St) (d : Char) (r : Str) (hs : s.rest = d :: r) (h : d.toUpper = c) : go (ci c) k s = k (adv s [d] r) := by
  unfold ci
  exact go_cls _ _ _ _ _ hs (by simp [h])

theorem ci_none (c : Char) (k : St → Option St) (s : St) (d : Char) (r : Str) (hs : s.rest = d :: r) (h : d ≠ c) (h2 : d.toUpper ≠ c) : go (ci c) k s = none := by
  unfold ci
  apply go_cls_none
  intro x hx
  rw [hs] at hx
  simp only [List.head?_cons, Option.some.injEq] at hx
  subst hx
  simp [h, h2]

/-- What follows the name. -/
def afterName : Re := .seq (.star sp) (.seq (opt (.seq (.cls (fun c => c = ';' || c = '*')) (.star dot))) .eol)

theorem after_none (q r : Str) (hq : q ≠ []) (hc : ∀ c ∈ q, c ≠ ';' ∧ c ≠ '*') (hl : ∀ c, q.getLast? = some c → isSpace c = false) (s : St) (hs : s.rest = q ++ r)
    (k : St → Option St) : go afterName k s = none := by
  apply go_none
  intro t ht
  exfalso
  unfold afterName at ht
  cases ht with
  | seq h1 h2 =>
    obtain ⟨a, ha, hsp, _⟩ := run_star_cls h1
    have e : q ++ r = a ++ _ := hs.symm.trans ha.text
    have hlt : ∃ z y, q = a ++ z :: y := by
      rcases List.append_eq_append_iff.1 e with ⟨x, e1, e2⟩ | ⟨x, e1, e2⟩
      · obtain ⟨q', z, e3⟩ := (List.eq_nil_or_concat q).resolve_left hq
        rw [List.concat_eq_append] at e3
        have := hl z (by rw [e3]; exact List.getLast?_concat)
        have h3 := hsp z (by rw [e1, e3]; simp)
        rw [this] at h3; simp at h3
      · cases x with
        | nil =>
          rw [List.append_nil] at e1
          obtain ⟨q', z, e3⟩ := (List.eq_nil_or_concat q).resolve_left hq
          rw [List.concat_eq_append] at e3
          have := hl z (by rw [e3]; exact List.getLast?_concat)
          have h3 := hsp z (by rw [← e1, e3]; simp)
          rw [this] at h3; simp at h3
        | cons z y => exact ⟨z, y, e1⟩
    obtain ⟨z, y, e3⟩ := hlt
    rw [e3, List.append_assoc] at e
    have e4 := List.append_cancel_left e
    have hz := hc z (by rw [e3]; simp)
    cases h2 with
    | seq h3 h4 =>
      cases h3 with
      | left h5 =>
        cases h5 with
        | seq h6 _ =>
          cases h6 with
          | cls h7 h8 =>
            rw [← e4] at h7
            simp only [List.cons_append, List.cons.injEq] at h7
            rw [← h7.1] at h8
            simp [hz.1, hz.2] at h8
      | right h5 =>
        cases h5
        cases h4 with
        | eol h6 =>
          rw [← e4] at h6
          rcases h6 with h6 | h6
          · simp at h6
          · simp only [List.cons_append, List.cons.injEq, List.append_eq_nil_iff] at h6
            obtain ⟨h7, h8, _⟩ := h6
            have := hl z (by rw [e3, h8]; exact List.getLast?_concat)
            rw [h7] at this
            revert this; decide

theorem after_some (blanks comment : Str) (hb : ∀ c ∈ blanks, isSpace c = true)
    (hc : comment = [] ∨ ((comment.head? = some ';' ∨ comment.head? = some '*') ∧ '\n' ∉ comment)) (s : St) (hs : s.rest = blanks ++ comment ++ ['\n'])
    (k : St → Option St) (hk : ∀ t, t.caps = s.caps → k t = some t) : ∃ x, go afterName k s = some x ∧ x.caps = s.caps := by
  unfold afterName
  rcases hc with rfl | ⟨hh, hnl⟩
  · refine ⟨adv s (blanks ++ ['\n']) [], ?_, rfl⟩
    rw [go_seq]
    unfold sp
    rw [go_star _ _ _ (blanks ++ ['\n']) [] (by simpa using hs) (by
      intro c hc
      simp only [List.mem_append, List.mem_singleton] at hc
      rcases hc with g | rfl
      · exact hb c g
      · decide) (by simp)]
    rw [go_seq, go_opt_skip]
    · simp only [go]
      rw [if_pos (.inl rfl)]
      exact hk _ rfl
    · rw [go_seq]
      apply go_cls_none
      intro c hc; simp [adv] at hc
  · obtain ⟨z, y, e⟩ : ∃ z y, comment = z :: y := by
      cases comment with
      | nil => simp at hh
      | cons z y => exact ⟨z, y, rfl⟩
    subst e
    have hz : z = ';' ∨ z = '*' := by simpa using hh
    refine ⟨adv (adv (adv s blanks (z :: y ++ ['\n'])) [z] (y ++ ['\n'])) y ['\n'], ?_, rfl⟩
    rw [go_seq]
    unfold sp
    rw [go_star _ _ _ blanks (z :: y ++ ['\n']) (by simpa using hs) hb (by
      intro c hc
      simp only [List.cons_append, List.head?_cons, Option.some.injEq] at hc
      subst hc
      rcases hz with rfl | rfl <;> decide)]
    rw [go_seq]
    have hm : go (.seq (.cls (fun c => c = ';' || c = '*')) (.star dot)) (go .eol k) (adv s blanks (z :: y ++ ['\n'])) =
        some (adv (adv (adv s blanks (z :: y ++ ['\n'])) [z] (y ++ ['\n'])) y ['\n']) := by
      rw [go_seq, go_cls _ _ _ z (y ++ ['\n']) rfl (by rcases hz with rfl | rfl <;> rfl)]
      unfold dot
      rw [go_star _ _ _ y ['\n'] rfl (by
        intro c hc
        have : c ≠ '\n' := by rintro rfl; exact hnl (by simp [hc])
        simp [this]) (by intro c hc; simp at hc; subst hc; rfl)]
      simp only [go]
      rw [if_pos (.inr rfl)]
      exact hk _ rfl
    unfold opt
    simp only [go] at hm ⊢
    rw [hm]; rfl

def keyRe : Re := .alt (.seq (ci 'L') (.seq (ci 'I') (ci 'B'))) (.seq (ci 'I') (.seq (ci 'N') (.seq (ci 'C') (opt (.seq (ci 'L') (.seq (ci 'U') (.seq (ci 'D') (ci 'E'))))))))

theorem key_go (key : Str) (h : key.map Char.toUpper ∈ ["INC".toList, "INCLUDE".toList, "LIB".toList]) (rest : Str) (g : Char) (hr : rest.head? = some g) (hg : isSpace g = true)
    (k : St → Option St) (hk : ∀ (s : St) (c : Char), s.rest.head? = some c → isSpace c = false → k s = none) (s : St) (hs : s.rest = key ++ rest) :
    go keyRe k s = k (adv s key rest) := by
  have up : ∀ {d c : Char}, d.toUpper = c → c.isAlpha = true → isSpace d = false := by
    intro d c e hc
    by_cases hd : isSpace d = true
    · have h1 := (Lemmas.ParamRegex.space_facts d hd).1
      rw [Lemmas.ParamRegex.upper_word d c e hc] at h1
      simp at h1
    · simpa using hd
  have other : ∀ {d c e : Char}, d.toUpper = c → c ≠ e → e.toUpper = e → d ≠ e ∧ d.toUpper ≠ e := by
    intro d c e h1 h2 h3
    refine ⟨?_, by rw [h1]; exact h2⟩
    rintro rfl
    rw [h3] at h1; exact h2 h1.symm
  simp only [List.mem_cons, List.not_mem_nil, or_false, show "INC".toList = ['I', 'N', 'C'] from rfl, show "INCLUDE".toList = ['I', 'N', 'C', 'L', 'U', 'D', 'E'] from rfl, show "LIB".toList = ['L', 'I', 'B'] from rfl] at h
  unfold keyRe
  rw [show ∀ a b : Re, go (.alt a b) k s = (go a k s).or (go b k s) from fun _ _ => rfl]
  rcases h with h | h | h
  · obtain ⟨a, b, c, rfl⟩ : ∃ a b c : Char, key = [a, b, c] := by
      have hl : key.length = 3 := by simpa using congrArg List.length h
      match key, hl with
      | [a, b, c], _ => exact ⟨a, b, c, rfl⟩
    · skip
      obtain ⟨h1, h2, h3⟩ : a.toUpper = 'I' ∧ b.toUpper = 'N' ∧ c.toUpper = 'C' := by simpa using h
      rw [go_seq, ci_none 'L' _ s a ([b, c] ++ rest) hs (other h1 (by decide) (by decide)).1 (other h1 (by decide) (by decide)).2, Option.none_or]
      rw [go_seq, go_ci 'I' _ _ a ([b, c] ++ rest) hs h1, go_seq, go_ci 'N' _ _ b ([c] ++ rest) rfl h2, go_seq, go_ci 'C' _ _ c rest rfl h3, go_opt_skip]
      · rw [Lemmas.Regex.adv_adv, Lemmas.Regex.adv_adv]; rfl
      · rw [go_seq]
        obtain ⟨r, e⟩ : ∃ r, rest = g :: r := by
          cases rest with
          | nil => simp at hr
          | cons x r => simp at hr; exact ⟨r, by rw [hr]⟩
        refine ci_none 'L' _ _ g r e ?_ ?_
        · rintro rfl; revert hg; decide
        · intro e2; rw [up e2 (by decide)] at hg; simp at hg
  · obtain ⟨a, b, c, d, e, f, i, rfl⟩ : ∃ a b c d e f i : Char, key = [a, b, c, d, e, f, i] := by
      have hl : key.length = 7 := by simpa using congrArg List.length h
      match key, hl with
      | [a, b, c, d, e, f, i], _ => exact ⟨a, b, c, d, e, f, i, rfl⟩
    · skip
      obtain ⟨h1, h2, h3, h4, h5, h6, h7⟩ : a.toUpper = 'I' ∧ b.toUpper = 'N' ∧ c.toUpper = 'C' ∧ d.toUpper = 'L' ∧ e.toUpper = 'U' ∧ f.toUpper = 'D' ∧ i.toUpper = 'E' := by simpa using h
      rw [go_seq, ci_none 'L' _ s a ([b, c, d, e, f, i] ++ rest) hs (other h1 (by decide) (by decide)).1 (other h1 (by decide) (by decide)).2, Option.none_or]
      rw [go_seq, go_ci 'I' _ _ a ([b, c, d, e, f, i] ++ rest) hs h1, go_seq, go_ci 'N' _ _ b ([c, d, e, f, i] ++ rest) rfl h2, go_seq, go_ci 'C' _ _ c ([d, e, f, i] ++ rest) rfl h3]
      unfold opt
      rw [show ∀ (a b : Re) (t : St), go (.alt a b) k t = (go a k t).or (go b k t) from fun _ _ _ => rfl]
      rw [show go .nil k (adv (adv (adv s [a] ([b, c, d, e, f, i] ++ rest)) [b] ([c, d, e, f, i] ++ rest)) [c] ([d, e, f, i] ++ rest)) = none from hk _ d rfl (up h4 (by decide)), Option.or_none]
      rw [go_seq, go_ci 'L' _ _ d ([e, f, i] ++ rest) rfl h4, go_seq, go_ci 'U' _ _ e ([f, i] ++ rest) rfl h5, go_seq, go_ci 'D' _ _ f ([i] ++ rest) rfl h6, go_ci 'E' _ _ i rest rfl h7]
      simp only [Lemmas.Regex.adv_adv]; rfl
  · obtain ⟨a, b, c, rfl⟩ : ∃ a b c : Char, key = [a, b, c] := by
      have hl : key.length = 3 := by simpa using congrArg List.length h
      match key, hl with
      | [a, b, c], _ => exact ⟨a, b, c, rfl⟩
    · skip
      obtain ⟨h1, h2, h3⟩ : a.toUpper = 'L' ∧ b.toUpper = 'I' ∧ c.toUpper = 'B' := by simpa using h
      rw [show go (.seq (ci 'I') (.seq (ci 'N') (.seq (ci 'C') (opt (.seq (ci 'L') (.seq (ci 'U') (.seq (ci 'D') (ci 'E')))))))) k s = none by
        rw [go_seq, ci_none 'I' _ s a ([b, c] ++ rest) hs (other h1 (by decide) (by decide)).1 (other h1 (by decide) (by decide)).2], Option.or_none]
      rw [go_seq, go_ci 'L' _ _ a ([b, c] ++ rest) hs h1, go_seq, go_ci 'I' _ _ b ([c] ++ rest) rfl h2, go_ci 'B' _ _ c rest rfl h3]
      rw [Lemmas.Regex.adv_adv, Lemmas.Regex.adv_adv]; rfl

/-- C32: the name of an included file is the text between the keyword and the comment, without the blanks around it. -/
theorem C32_include_name (i : Include) (h : i.Ok) : fileName i.text = some i.name := by
  obtain ⟨k, hk, hkey⟩ := h.key
  obtain ⟨y, n, en⟩ := List.exists_cons_of_ne_nil h.name.1
  obtain ⟨g, gs, eg⟩ := List.exists_cons_of_ne_nil h.gap.1
  have hy := h.ends.1 y (by rw [en]; rfl)
  let R := i.blanks ++ i.comment ++ ['\n']
  have e0 : i.text = '.' :: (k ++ (i.gap ++ (i.name ++ R))) := by simp [Include.text, hk, R]
  unfold fileName exec
  rw [e0]
  have hre : libIncRe = .seq (lit '.') (.seq keyRe (.seq (plus sp) (.seq (.grp .value (.seq dot (.lazy dot))) afterName))) := rfl
  have main : ∃ x, go libIncRe some ⟨0, '.' :: (k ++ (i.gap ++ (i.name ++ R))), []⟩ = some x ∧ x.get .value = some (k.length + 1 + i.gap.length, i.name) := by
    rw [hre, go_seq]
    unfold lit
    rw [go_cls _ _ _ '.' (k ++ (i.gap ++ (i.name ++ R))) rfl (by decide), go_seq]
    rw [key_go k hkey (i.gap ++ (i.name ++ R)) g (by rw [eg]; rfl) (h.gap.2 g (by rw [eg]; simp)) _ (by
      intro s c hs hc
      rw [go_seq]
      apply go_none
      intro t ht
      exfalso
      obtain ⟨a, ha, hb, hsp, _⟩ := run_plus_cls ht
      obtain ⟨z, a', ea⟩ := List.exists_cons_of_ne_nil ha
      have := hb.text
      rw [this, ea] at hs
      simp only [List.cons_append, List.head?_cons, Option.some.injEq] at hs
      have h2 := hsp z (by rw [ea]; simp)
      rw [hs, hc] at h2; simp at h2) _ rfl]
    rw [go_seq]
    generalize hs0 : adv (adv (adv ⟨0, '.' :: (k ++ (i.gap ++ (i.name ++ R))), []⟩ ['.'] (k ++ (i.gap ++ (i.name ++ R)))) k (i.gap ++ (i.name ++ R))) i.gap (i.name ++ R) = s0
    have hr0 : s0.rest = y :: (n ++ R) := by rw [← hs0, en]; rfl
    have hc0 : s0.caps = [] := by rw [← hs0]; rfl
    have hp0 : s0.pos = k.length + 1 + i.gap.length := by rw [← hs0]; simp [adv]; omega
    have hynl : y ≠ '\n' := (h.name.2 y (by rw [en]; simp)).2.2
    have hB : Between s0 (adv (adv s0 [y] (n ++ R)) n R) i.name := by
      refine ⟨?_, ?_⟩
      · rw [hr0, en]; rfl
      · rw [en]; simp [adv]; omega
    obtain ⟨x, hx, hxc⟩ := after_some i.blanks i.comment h.blanks h.comment (St.close .value s0 (adv (adv s0 [y] (n ++ R)) n R)) rfl some (fun _ _ => rfl)
    refine ⟨x, ?_, ?_⟩
    · unfold sp
      refine go_plus _ _ _ i.gap (i.name ++ R) h.gap.1 rfl h.gap.2 (by rw [en]; intro c hc; simp at hc; rw [← hc]; exact hy) x ?_
      rw [hs0, go_seq, go_grp, go_seq]
      unfold dot
      rw [go_cls _ _ _ y (n ++ R) hr0 (by simp [hynl])]
      refine go_lazy _ _ n R _ rfl ?_ ?_ x hx
      · intro c hc
        have := (h.name.2 c (by rw [en]; simp [hc])).2.2
        simp [this]
      · intro u q e hq
        refine after_none q R hq ?_ ?_ _ rfl _
        · intro c hc
          have := h.name.2 c (by rw [en, e]; simp [hc])
          exact ⟨this.1, this.2.1⟩
        · intro c hc
          refine h.ends.2 c ?_
          rw [en, e, List.getLast?_cons, List.getLast?_append, hc]; rfl
    · simp only [St.get, hxc, close_text _ hB, List.lookup, hp0]; rfl
  obtain ⟨x, h1, h2⟩ := main
  rw [h1]
  simp only [h2, Option.map_some]

/-! ### Saving -/

variable (w : WordClass) (numeric : Str → Bool) (shown : PV → Str)

theorem letter_prefix (c : Char) (h : (∃ sh, Spec.CompLine.shape c = some sh) ∨ ∃ k, Spec.CompLine.shortKind c = some k) : Model.Netlist.isBlank c = false ∧ Model.Netlist.upChar c ∈ Model.Netlist.validPrefixes := by
  have look : ∀ {β : Type} (l : List (Char × β)) (x : β), l.lookup c = some x → c ∈ l.map Prod.fst := by
    intro β l x
    induction l with
    | nil => intro h; simp at h
    | cons p l ih =>
      intro h
      obtain ⟨a, b⟩ := p
      by_cases e : c = a
      · simp [e]
      · rw [List.lookup_cons, beq_false_of_ne e] at h
        simp [ih h]
  have all : ∀ d ∈ "RCLVIDJUZOÖ¥€£MQYNPXEFGHSWAK".toList, Model.Netlist.isBlank d = false ∧ Model.Netlist.upChar d ∈ Model.Netlist.validPrefixes := by decide +kernel
  apply all
  rcases h with ⟨sh, h⟩ | ⟨k, h⟩
  · have := look _ _ h
    revert this
    clear all
    simp only [List.map_cons, List.map_nil]
    exact fun hc => (show ∀ d ∈ ['R', 'C', 'L', 'V', 'I', 'D', 'J', 'U', 'Z', 'O', 'Ö', '¥', '€', '£', 'M', 'Q', 'Y', 'N', 'P', 'X'], d ∈ "RCLVIDJUZOÖ¥€£MQYNPXEFGHSWAK".toList by decide +kernel) c hc
  · have := look _ _ h
    exact (show ∀ d ∈ ['E', 'F', 'G', 'H', 'S', 'W', 'A', 'K'], d ∈ "RCLVIDJUZOÖ¥€£MQYNPXEFGHSWAK".toList by decide +kernel) c this

theorem kind_letter (c : Char) (r : Str) (h : Model.Netlist.isBlank c = false ∧ Model.Netlist.upChar c ∈ Model.Netlist.validPrefixes) : kindOf (c :: r) = some .comp := by
  unfold kindOf Model.Netlist.lineCommand
  rw [h.1]
  simp only [Bool.false_eq_true, if_false, if_pos h.2, Option.map_some, Option.some.injEq]
  exact (show ∀ d ∈ Model.Netlist.validPrefixes, kind [d] = .comp by decide +kernel) _ h.2

theorem comp_kind {s : Str} (h : CompOk w.word (NameOk numeric) s) : kindOf s = some .comp := by
  rcases h with ⟨l, sh, rfl, h, _⟩ | ⟨l, k, rfl, h, _⟩
  · exact kind_letter _ _ (letter_prefix _ (.inl ⟨sh, h.shape⟩))
  · exact kind_letter _ _ (letter_prefix _ (.inr ⟨k, h.kind⟩))

/-- A component of the grammar that was not touched is written as its line. -/
theorem comp_untouched {s : Str} (h : CompOk w.word (NameOk numeric) s) : untouchedLine w numeric shown s = some s := by
  rcases h with ⟨l, sh, rfl, h, hn, hs, h1⟩ | ⟨l, k, rfl, h, hs, h1, h2⟩
  · have r := Props.CompLine.reset_line w numeric shown h hn
    unfold untouchedLine
    rw [r]
    simp only
    rw [Props.CompLine.C63_untouched w numeric shown l sh h hn hs _ r h1]
  · have r := Props.CompShort.reset_short w numeric shown h
    unfold untouchedLine
    rw [r]
    simp only
    rw [Props.CompShort.C63_short_untouched w numeric shown l k h hs _ r h1 h2]

mutual
theorem write_block (inc : Str → Str) (incl : Str → Option Str) (b : Block) (h : b.ok) (ht : Block.neat w.word (NameOk numeric) b)
    (hi : ∀ s ∈ Block.includes b, incl s = some (inc s)) : writeItem (untouchedLine w numeric shown) incl (item b) = some (Block.inlined inc b).flatten := by
  match b with
  | .line s =>
    simp only [Block.neat] at ht
    simp only [item, Block.inlined]
    rcases ht with ht | ht | ⟨ht, h2⟩ | ht
    · simp [ht, writeItem]
    · simp only [ht, writeItem, if_true]
      rw [hi s (by simp [Block.includes, ht])]; simp
    · simp only [ht, writeItem]
      rw [h2]; simp
    · simp only [comp_kind w numeric ht, writeItem]
      rw [comp_untouched w numeric shown ht]; simp
  | .subckt hd body t =>
    simp only [Block.neat] at ht
    simp only [Block.ok] at h
    simp only [item, Block.inlined, writeItem]
    have hb := write_blocks inc incl body h.2.1 ht.2.1 (fun s hs => hi s (by simpa [Block.includes] using hs))
    have htl : writeItems (untouchedLine w numeric shown) incl [Item.prim t] = some t := by
      simp only [writeItems, writeItem]; rw [ht.2.2]; simp
    rw [writeItems, Props.NetTree.writeItems_append _ _ _ _ _ _ hb htl]
    simp only [writeItem]
    rw [ht.1]; simp
  | .control hd body t =>
    simp only [Block.neat] at ht
    simp only [item, Block.inlined, writeItem]
    congr 1
    clear h
    have : ∀ ls : List Str, (∀ l ∈ ls, rstrip l ++ ['\n'] = l) → ls.flatMap (fun l => rstrip l ++ ['\n']) = ls.flatten := by
      intro ls
      induction ls with
      | nil => intro _; rfl
      | cons l ls ih =>
        intro hl
        rw [List.flatMap_cons, List.flatten_cons, hl l (by simp), ih (fun x hx => hl x (by simp [hx]))]
    exact this _ ht
theorem write_blocks (inc : Str → Str) (incl : Str → Option Str) (bs : List Block) (h : allOk bs) (ht : allNeat w.word (NameOk numeric) bs)
    (hi : ∀ s ∈ includesOf bs, incl s = some (inc s)) : writeItems (untouchedLine w numeric shown) incl (itemsOf bs) = some (inlinedOf inc bs).flatten := by
  match bs with
  | [] => rfl
  | b :: bs =>
    simp only [allOk] at h
    simp only [allNeat] at ht
    simp only [itemsOf, inlinedOf, writeItems]
    rw [write_block inc incl b h.1 ht.1 (fun s hs => hi s (by simp [includesOf, hs])), write_blocks inc incl bs h.2 ht.2 (fun s hs => hi s (by simp [includesOf, hs]))]
    simp
end

/-- The lines of a file, each on one physical line, none a continuation. -/
def Plain (ls : List Str) : Prop := ∀ l ∈ ls, PlainLine l ∧ l.head? ≠ some '+' ∧ l.head? ≠ some '\r'

theorem load_closed (inc : Bool) (bs : List Block) (h : allOk bs) (e : Str) (he : kindOf e = some .closing) (rest : List Str) (hr : ∀ l ∈ rest, ∃ k, kindOf l = some k)
    (hp : Plain (linesOf bs ++ e :: rest)) : loadText inc (linesOf bs ++ e :: rest).flatten = some (itemsOf bs ++ [.prim e] ++ Props.NetTree.comments rest) := by
  unfold loadText
  rw [Props.NetTree.separate_plain _ hp]
  simp only [Bool.false_eq_true, if_false]
  rw [Props.NetTree.C32_load bs h e he rest hr inc]

theorem load_open (bs : List Block) (h : allOk bs) (hp : Plain (linesOf bs)) : loadText true (linesOf bs).flatten = some (itemsOf bs) := by
  unfold loadText
  rw [Props.NetTree.separate_plain _ hp]
  simp only [Bool.false_eq_true, if_false]
  have h1 : addLines [] [] none (linesOf bs) = .ok ⟨false, itemsOf bs, []⟩ := by
    have := Props.NetTree.addLines_blocks [] [] bs h []
    rw [List.append_nil] at this
    rw [this, addLines]
    simp
  unfold load
  rw [h1]
  simp [trailing]

variable (fs : Str → Str → Option (Str × Str))

/-- C32: a netlist with well nested blocks whose components are of the grammar and whose directives are tidy is saved as it is, with the
text of the included files in place of the include lines (here `inc`; see the next theorem). -/
theorem C32_save (n : Nat) (here : Str) (bs : List Block) (h : allOk bs) (ht : allNeat w.word (NameOk numeric) bs) (e : Str) (he : kindOf e = some .closing)
    (hte : Spec.NetSave.Tidy e) (hp : Plain (linesOf bs ++ [e])) (inc : Str → Str) (hi : ∀ s ∈ includesOf bs, includedText w numeric shown fs n here s = some (inc s)) :
    saveText w numeric shown fs n here (linesOf bs ++ [e]).flatten = some (inlinedOf inc bs ++ [e]).flatten := by
  unfold saveText
  rw [load_closed false bs h e he [] (by simp) hp]
  simp only [Props.NetTree.comments, List.filter_nil, List.map_nil, List.append_nil]
  rw [Props.NetTree.writeItems_append _ _ _ _ _ e (write_blocks w numeric shown inc _ bs h ht hi)]
  · simp
  · simp only [writeItems, writeItem]; rw [hte]; simp

/-- C32: the text of an included file: its blocks as they are, its own includes replaced likewise. -/
theorem C32_included (n : Nat) (here there : Str) (i : Include) (hi : i.Ok) (bs : List Block) (hf : fs here i.name = some (there, (linesOf bs).flatten)) (h : allOk bs)
    (ht : allNeat w.word (NameOk numeric) bs) (hp : Plain (linesOf bs)) (inc : Str → Str) (hinc : ∀ s ∈ includesOf bs, includedText w numeric shown fs n there s = some (inc s)) :
    includedText w numeric shown fs (n + 1) here i.text = some (inlinedOf inc bs).flatten := by
  unfold includedText
  rw [C32_include_name i hi]
  simp only [hf]
  rw [load_open bs h hp]
  exact write_blocks w numeric shown inc _ bs h ht hinc

mutual
theorem inlined_none (inc : Str → Str) (b : Block) (h : Block.includes b = []) : Block.inlined inc b = b.lines := by
  match b with
  | .line s =>
    simp only [Block.includes] at h
    simp only [Block.inlined, Block.lines]
    split at h
    · simp at h
    · rename_i hk; rw [if_neg hk]
  | .subckt hd body t =>
    simp only [Block.includes] at h
    simp only [Block.inlined, Block.lines, inlinedOf_none inc body h]
  | .control hd body t => rfl
theorem inlinedOf_none (inc : Str → Str) (bs : List Block) (h : includesOf bs = []) : inlinedOf inc bs = linesOf bs := by
  match bs with
  | [] => rfl
  | b :: bs =>
    simp only [includesOf, List.append_eq_nil_iff] at h
    simp only [inlinedOf, linesOf, inlined_none inc b h.1, inlinedOf_none inc bs h.2]
end

/-- C32: without includes, loading and saving gives back the text of the file. -/
theorem C32_save_same (n : Nat) (here : Str) (bs : List Block) (h : allOk bs) (ht : allNeat w.word (NameOk numeric) bs) (hn : includesOf bs = []) (e : Str)
    (he : kindOf e = some .closing) (hte : Spec.NetSave.Tidy e) (hp : Plain (linesOf bs ++ [e])) :
    saveText w numeric shown fs n here (linesOf bs ++ [e]).flatten = some (linesOf bs ++ [e]).flatten := by
  rw [C32_save w numeric shown fs n here bs h ht e he hte hp (fun s => s) (by rw [hn]; simp), inlinedOf_none _ _ hn]

/-- C32 (finding): when the included file has an .END line of its own, that line is written in the middle of the saved netlist, so that
everything after the include line is lost when the netlist is loaded again (and a simulator stops reading there). -/
theorem C32_include_with_end (n : Nat) (here there : Str) (i : Include) (hi : i.Ok) (hik : kindOf i.text = some .incl) (bs fbs cs : List Block) (e e' : Str) (hb : allOk bs)
    (hf : allOk fbs) (hc : allOk cs) (he : kindOf e = some .closing) (he' : kindOf e' = some .closing) (hte : Spec.NetSave.Tidy e) (hte' : Spec.NetSave.Tidy e')
    (tb : allNeat w.word (NameOk numeric) bs) (tf : allNeat w.word (NameOk numeric) fbs) (tc : allNeat w.word (NameOk numeric) cs)
    (nb : includesOf bs = []) (nf : includesOf fbs = []) (nc : includesOf cs = [])
    (hfs : fs here i.name = some (there, (linesOf fbs ++ [e']).flatten))
    (hp : Plain (linesOf (bs ++ .line i.text :: cs) ++ [e])) (hpf : Plain (linesOf fbs ++ [e'])) (hr : ∀ l ∈ linesOf cs ++ [e], ∃ k, kindOf l = some k) :
    ∃ text, saveText w numeric shown fs (n + 1) here (linesOf (bs ++ .line i.text :: cs) ++ [e]).flatten = some text ∧
      loadText false text = some (itemsOf (bs ++ fbs) ++ [.prim e'] ++ Props.NetTree.comments (linesOf cs ++ [e])) := by
  have app : ∀ a b : List Block, linesOf (a ++ b) = linesOf a ++ linesOf b := by
    intro a b
    induction a with
    | nil => rfl
    | cons x a ih => simp only [List.cons_append, linesOf, ih, List.append_assoc]
  have appO : ∀ a b : List Block, allOk a → allOk b → allOk (a ++ b) := by
    intro a b ha hb
    induction a with
    | nil => exact hb
    | cons x a ih => simp only [List.cons_append, allOk] at ha ⊢; exact ⟨ha.1, ih ha.2⟩
  have appN : ∀ a b : List Block, allNeat w.word (NameOk numeric) a → allNeat w.word (NameOk numeric) b → allNeat w.word (NameOk numeric) (a ++ b) := by
    intro a b ha hb
    induction a with
    | nil => exact hb
    | cons x a ih => simp only [List.cons_append, allNeat] at ha ⊢; exact ⟨ha.1, ih ha.2⟩
  have appI : ∀ a b : List Block, includesOf (a ++ b) = includesOf a ++ includesOf b := by
    intro a b
    induction a with
    | nil => rfl
    | cons x a ih => simp only [List.cons_append, includesOf, ih, List.append_assoc]
  have appL : ∀ (inc : Str → Str) (a b : List Block), inlinedOf inc (a ++ b) = inlinedOf inc a ++ inlinedOf inc b := by
    intro inc a b
    induction a with
    | nil => rfl
    | cons x a ih => simp only [List.cons_append, inlinedOf, ih, List.append_assoc]
  have hft : includedText w numeric shown fs (n + 1) here i.text = some (linesOf fbs ++ [e']).flatten := by
    unfold includedText
    rw [C32_include_name i hi]
    simp only [hfs]
    rw [load_closed true fbs hf e' he' [] (by simp) hpf]
    simp only [Props.NetTree.comments, List.filter_nil, List.map_nil, List.append_nil]
    rw [Props.NetTree.writeItems_append _ _ _ _ _ e' (write_blocks w numeric shown (fun s => s) _ fbs hf tf (by rw [nf]; simp))]
    · rw [inlinedOf_none _ _ nf]; simp
    · simp only [writeItems, writeItem]; rw [hte']; simp
  have hline : allOk (Block.line i.text :: cs) := by simp only [allOk, Block.ok]; exact ⟨by simp [hik], hc⟩
  have hneat : allNeat w.word (NameOk numeric) (Block.line i.text :: cs) := by simp only [allNeat, Block.neat]; exact ⟨by simp [hik], tc⟩
  have hsave := C32_save w numeric shown fs (n + 1) here (bs ++ .line i.text :: cs) (appO _ _ hb hline) (appN _ _ tb hneat) e he hte hp
    (fun _ => (linesOf fbs ++ [e']).flatten) (by
      intro s hs
      rw [appI, nb] at hs
      simp only [includesOf, Block.includes, hik, if_true, nc, List.append_nil, List.nil_append, List.mem_singleton] at hs
      rw [hs]; exact hft)
  refine ⟨_, hsave, ?_⟩
  have etext : (inlinedOf (fun _ => (linesOf fbs ++ [e']).flatten) (bs ++ .line i.text :: cs) ++ [e]).flatten = (linesOf (bs ++ fbs) ++ e' :: (linesOf cs ++ [e])).flatten := by
    rw [appL, inlinedOf_none _ _ nb, app]
    simp only [inlinedOf, Block.inlined, hik, if_true, inlinedOf_none _ _ nc]
    simp
  rw [etext]
  refine load_closed false (bs ++ fbs) (appO _ _ hb hf) e' he' (linesOf cs ++ [e]) hr ?_
  intro l hl
  rw [app] at hl hp
  simp only [List.mem_append, List.mem_cons, List.not_mem_nil, or_false, linesOf, Block.lines, or_assoc] at hl
  rcases hl with g | g | g | g | g
  · exact hp l (by simp [g])
  · exact hpf l (by simp [g])
  · exact hpf l (by simp [g])
  · exact hp l (by simp [linesOf, g])
  · exact hp l (by simp [g])

/-- C32: a file that is not found, or an include line without a name, makes saving raise. -/
theorem C32_missing_include (n : Nat) (here s : Str) (bs cs : List Item) (h : fileName s = none ∨ ∃ f, fileName s = some f ∧ fs here f = none) :
    writeItems (untouchedLine w numeric shown) (includedText w numeric shown fs n here) (bs ++ .incl s :: cs) = none := by
  have hs : includedText w numeric shown fs n here s = none := by
    cases n with
    | zero => rfl
    | succ n =>
      unfold includedText
      rcases h with h | ⟨f, h, h2⟩
      · rw [h]
      · rw [h]; simp only [h2]
  induction bs with
  | nil => simp [writeItems, writeItem, hs]
  | cons b bs ih =>
    rw [List.cons_append, writeItems, ih]
    cases writeItem (untouchedLine w numeric shown) (includedText w numeric shown fs n here) b <;> rfl

/-- C32 (finding): saving over the file of the netlist when an include file is missing raises and leaves in the file only what comes before
the include line. -/
theorem C32_failed_save_truncates (untouched included : Str → Option Str) (s text : Str) (bs cs : List Item) (hb : writeItems untouched included bs = some text) (hs : included s = none) :
    onDisk untouched included (bs ++ .incl s :: cs) = (text, true) := by
  induction bs generalizing text with
  | nil =>
    simp only [writeItems, Option.some.injEq] at hb
    subst hb
    simp [onDisk, writeItem, hs]
  | cons b bs ih =>
    rw [writeItems] at hb
    cases hi : writeItem untouched included b with
    | none => rw [hi] at hb; simp at hb
    | some p =>
      cases hr : writeItems untouched included bs with
      | none => rw [hi, hr] at hb; simp at hb
      | some q =>
        rw [hi, hr] at hb
        simp only [Option.some.injEq] at hb
        rw [List.cons_append, onDisk, hi]
        simp only [ih q hr, hb]

/-- Without an error the file has the text. -/
theorem onDisk_ok (untouched included : Str → Option Str) (items : List Item) (text : Str) (h : writeItems untouched included items = some text) :
    onDisk untouched included items = (text, false) := by
  induction items generalizing text with
  | nil => simp only [writeItems, Option.some.injEq] at h; rw [← h]; rfl
  | cons b bs ih =>
    rw [writeItems] at h
    cases hi : writeItem untouched included b with
    | none => rw [hi] at h; simp at h
    | some p =>
      cases hr : writeItems untouched included bs with
      | none => rw [hi, hr] at h; simp at h
      | some q =>
        rw [hi, hr] at h
        simp only [Option.some.injEq] at h
        rw [onDisk, hi]
        simp only [ih q hr, h]

/-- C32 (finding): a name in quotes is looked for with the quotes. -/
theorem C32_quoted_name : fileName ".include \"my lib.sub\"\n".toList = some "\"my lib.sub\"".toList := by decide +kernel

/-! ### A concrete netlist -/

open Props.CompLine (ascii digits str exX exX_ok)

def exI : Include := ⟨".Inc".toList, "\t ".toList, "lib/a b.txt".toList, " ".toList, "; parts".toList⟩

theorem exI_ok : exI.Ok := ⟨⟨"Inc".toList, rfl, by decide +kernel⟩, by decide +kernel, by decide +kernel, by decide +kernel, by decide +kernel, .inr (by decide +kernel)⟩

def exBlocks : List Block := [.line "* title\n".toList, .line exI.text, .line (exX.text ++ ['\n'])]

def exFile : List Block := [.subckt ".subckt FILTER.2 a b c\n".toList [.line ".param x=1\n".toList] ".ends\n".toList]

/-- One library. -/
def exFs : Str → Str → Option (Str × Str) := fun _ n => if n = "lib/a b.txt".toList then some ("lib".toList, (linesOf exFile).flatten) else none

theorem plain_comment (t : Str) (h : '\n' ∉ t) : PlainLine ('*' :: t ++ ['\n']) := ⟨'*' :: t, rfl, .inl ⟨t, rfl, h⟩⟩

theorem ex_plain : Plain (linesOf exBlocks ++ [".end\n".toList]) := by
  intro l hl
  have e : linesOf exBlocks ++ [".end\n".toList] = ["* title\n".toList, ".Inc\t lib/a b.txt ; parts\n".toList, "X1 in out 0 FILTER.2 f=1k  q={x + y}   ; low=pass\n".toList, ".end\n".toList] := by decide +kernel
  rw [e] at hl
  simp only [List.mem_cons, List.not_mem_nil, or_false] at hl
  have unb : ∀ t : Str, t.head? ≠ some '*' → (∀ c ∈ t, c ∉ ['\n', '\r', ';']) → Spec.LogicalLine.Unbroken t := by
    intro t h1 h2
    refine ⟨h1, ?_⟩
    intro a b c hc hh
    have := h2 c (by rw [hc]; simp)
    rcases hh with rfl | rfl | rfl <;> simp at this
  rcases hl with rfl | rfl | rfl | rfl
  · exact ⟨plain_comment " title".toList (by decide), by decide, by decide⟩
  · exact ⟨⟨".Inc\t lib/a b.txt ; parts".toList, by decide +kernel, .inr (.inr ⟨".Inc\t lib/a b.txt ".toList, " parts".toList, by decide +kernel, by decide, unb _ (by decide) (by decide +kernel), by decide +kernel⟩)⟩,
      by decide, by decide⟩
  · exact ⟨⟨"X1 in out 0 FILTER.2 f=1k  q={x + y}   ; low=pass".toList, by decide +kernel, .inr (.inr ⟨"X1 in out 0 FILTER.2 f=1k  q={x + y}   ".toList, " low=pass".toList, by decide +kernel, by decide, unb _ (by decide) (by decide +kernel), by decide +kernel⟩)⟩,
      by decide, by decide⟩
  · exact ⟨Props.NetTree.plain_simple ".end".toList (by decide) (by decide), by decide, by decide⟩

example : saveText ascii digits str exFs 1 [] "* title\n.Inc\t lib/a b.txt ; parts\nX1 in out 0 FILTER.2 f=1k  q={x + y}   ; low=pass\n.end\n".toList =
    some "* title\n.subckt FILTER.2 a b c\n.param x=1\n.ends\nX1 in out 0 FILTER.2 f=1k  q={x + y}   ; low=pass\n.end\n".toList := by
  have hx : CompOk ascii.word (NameOk digits) (exX.text ++ ['\n']) := .inl ⟨exX, .inst, rfl, exX_ok.1, exX_ok.2.2, exX_ok.2.1, by decide +kernel⟩
  have hk : kindOf exI.text = some .incl := by decide +kernel
  have hxk := comp_kind ascii digits hx
  have hcom : kindOf "* title\n".toList = some .text := by decide +kernel
  have hok : allOk exBlocks := by simp only [exBlocks, allOk, Block.ok, hk, hxk, hcom]; simp
  have hneat : allNeat ascii.word (NameOk digits) exBlocks := by
    simp only [exBlocks, allNeat, Block.neat, hk, hcom]
    exact ⟨.inl trivial, .inr (.inl trivial), .inr (.inr (.inr hx)), trivial⟩
  have hfile : includedText ascii digits str exFs 1 [] exI.text = some (inlinedOf (fun s => s) exFile).flatten :=
    C32_included ascii digits str exFs 0 [] "lib".toList exI exI_ok exFile rfl (by simp only [exFile, allOk, Block.ok]; decide +kernel)
      (by simp only [exFile, allNeat, Block.neat, Spec.NetSave.Tidy]; exact ⟨⟨by decide +kernel, ⟨.inr (.inr (.inl (by decide +kernel))), trivial⟩, by decide +kernel⟩, trivial⟩) (by
        intro l hl
        have e : linesOf exFile = [".subckt FILTER.2 a b c\n".toList, ".param x=1\n".toList, ".ends\n".toList] := by decide +kernel
        rw [e] at hl
        simp only [List.mem_cons, List.not_mem_nil, or_false] at hl
        rcases hl with rfl | rfl | rfl
        · exact ⟨Props.NetTree.plain_simple ".subckt FILTER.2 a b c".toList (by decide) (by decide), by decide, by decide⟩
        · exact ⟨Props.NetTree.plain_simple ".param x=1".toList (by decide) (by decide), by decide, by decide⟩
        · exact ⟨Props.NetTree.plain_simple ".ends".toList (by decide) (by decide), by decide, by decide⟩) (fun s => s)
      (by intro s hs; have : includesOf exFile = [] := by decide +kernel
          rw [this] at hs; simp at hs)
  have := C32_save ascii digits str exFs 1 [] exBlocks hok hneat ".end\n".toList (by decide +kernel) (by unfold Spec.NetSave.Tidy; decide +kernel) ex_plain
    (fun _ => (inlinedOf (fun s => s) exFile).flatten) (by
      intro s hs
      have e : includesOf exBlocks = [exI.text] := by
        simp only [exBlocks, includesOf, Block.includes, hk, hxk, hcom]; rfl
      rw [e, List.mem_singleton] at hs
      rw [hs]; exact hfile)
  have e1 : (linesOf exBlocks ++ [".end\n".toList]).flatten = "* title\n.Inc\t lib/a b.txt ; parts\nX1 in out 0 FILTER.2 f=1k  q={x + y}   ; low=pass\n.end\n".toList := by decide +kernel
  rw [e1] at this
  rw [this]
  congr 1

/-- The library ends with .END: the directive after the include line is gone after saving and loading. -/
example : ∃ text, saveText ascii digits str (fun _ _ => some ([], ".model d d\n.END\n".toList)) 1 [] ".inc a.lib\n.tran 1m\n.end\n".toList = some text ∧
    loadText false text = some [.prim ".model d d\n".toList, .prim ".END\n".toList] := by
  have pl : ∀ t : Str, t.head? ≠ some '*' → (∀ c ∈ t, c ∉ "{}()[]\"\n\r;".toList) → t.head? ≠ some '+' → t.head? ≠ some '\r' → t ≠ [] →
      PlainLine (t ++ ['\n']) ∧ (t ++ ['\n']).head? ≠ some '+' ∧ (t ++ ['\n']).head? ≠ some '\r' := by
    intro t h1 h2 h3 h4 h5
    obtain ⟨x, t, rfl⟩ := List.exists_cons_of_ne_nil h5
    exact ⟨Props.NetTree.plain_simple _ h1 h2, h3, h4⟩
  have := C32_include_with_end ascii digits str (fun _ _ => some ([], ".model d d\n.END\n".toList)) 0 [] [] ⟨".inc".toList, " ".toList, "a.lib".toList, [], []⟩
    ⟨⟨"inc".toList, rfl, by decide +kernel⟩, by decide +kernel, by decide +kernel, by decide +kernel, by decide +kernel, .inl rfl⟩ (by decide +kernel)
    [] [.line ".model d d\n".toList] [.line ".tran 1m\n".toList] ".end\n".toList ".END\n".toList (by simp only [allOk]) (by simp only [allOk, Block.ok]; decide +kernel)
    (by simp only [allOk, Block.ok]; decide +kernel) (by decide +kernel) (by decide +kernel) (by unfold Spec.NetSave.Tidy; decide +kernel) (by unfold Spec.NetSave.Tidy; decide +kernel)
    (by simp only [allNeat]) (by simp only [allNeat, Block.neat, Spec.NetSave.Tidy]; exact ⟨.inr (.inr (.inl (by decide +kernel))), trivial⟩)
    (by simp only [allNeat, Block.neat, Spec.NetSave.Tidy]; exact ⟨.inr (.inr (.inl (by decide +kernel))), trivial⟩) (by decide +kernel) (by decide +kernel) (by decide +kernel)
    (by simp only [linesOf, Block.lines]; rfl) (by
      intro l hl
      simp only [List.nil_append, linesOf, Block.lines, List.append_nil, List.cons_append, List.mem_cons, List.not_mem_nil, or_false] at hl
      rcases hl with rfl | rfl | rfl
      · exact pl ".inc a.lib".toList (by decide) (by decide) (by decide) (by decide) (by decide)
      · exact pl ".tran 1m".toList (by decide) (by decide) (by decide) (by decide) (by decide)
      · exact pl ".end".toList (by decide) (by decide) (by decide) (by decide) (by decide)) (by
      intro l hl
      simp only [List.nil_append, linesOf, Block.lines, List.append_nil, List.cons_append, List.mem_cons, List.not_mem_nil, or_false] at hl
      rcases hl with rfl | rfl
      · exact pl ".model d d".toList (by decide) (by decide) (by decide) (by decide) (by decide)
      · exact pl ".END".toList (by decide) (by decide) (by decide) (by decide) (by decide)) (by
      intro l hl
      simp only [linesOf, Block.lines, List.append_nil, List.cons_append, List.nil_append, List.mem_cons, List.not_mem_nil, or_false] at hl
      rcases hl with rfl | rfl
      · exact ⟨.other, by decide +kernel⟩
      · exact ⟨.closing, by decide +kernel⟩)
  obtain ⟨t, h1, h2⟩ := this
  refine ⟨t, h1, ?_⟩
  rw [h2]
  have k1 : kindOf ".model d d\n".toList = some .other := by decide +kernel
  have k2 : Props.NetTree.comments (linesOf [.line ".tran 1m\n".toList] ++ [".end\n".toList]) = [] := by
    have : (linesOf [.line ".tran 1m\n".toList] ++ [".end\n".toList]).filter (fun s => kindOf s == some .text) = [] := by decide +kernel
    unfold Props.NetTree.comments
    rw [this]; rfl
  rw [k2]
  simp only [List.nil_append, itemsOf, item, k1]
  rfl

end Props.NetSave
