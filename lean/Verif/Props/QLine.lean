import Verif.Props.QSession
import Verif.Props.QNetlist
import Verif.Spec.QLine
/-!
The netlist of an edited QSPICE schematic: what an editing session (C107) means for the lines of the netlist written from the file (C69).
-/
namespace Props.QLine
open Model.Qsch (Tag readFile)
open Model.QSession (Op Sch run step fileOf opened isComp isTag textAt getValue texts)
open Model.QNetlist (component Out Comp)
open Model.QComp (tagText)
open Spec.QSession (SheetOk ParamsOk ArgsOk valueAfter CompTag SymbolTag TextTag restOf)
open Spec.QNetlist (Draws Dev Kind Says children unquoted shownRef IsWord words paramWords special)
open Props.QSession (textTag_text quoted_attr symbolOf_comp found_comp)

open Spec.QLine (linesOf)

abbrev Str := List Char

theorem text_unquoted {t : Tag} (h : TextTag t) (ht : t.tokens.head? = some "text".toList) : unquoted t 8 = tagText t := by
  obtain ⟨pre, s, rfl, hl, hp, hq, hc⟩ := h
  unfold tagText
  rw [if_pos ht, quoted_attr pre s hl]
  unfold unquoted Tag.tokens
  simp only
  rw [List.getElem?_append_right (by omega), hl]
  show some (if (('"' :: s ++ ['"']).head? = some '"' ∧ ('"' :: s ++ ['"']).getLast? = some '"') then (('"' :: s ++ ['"']).drop 1).dropLast else _) = some s
  rw [if_pos ⟨rfl, by rw [List.getLast?_concat]⟩]
  simp

theorem kids_eq (y : Tag) (name : Str) : children y name = y.items.filter (isTag name) := rfl

theorem kids_plain (y : Tag) (name : Str) (hn : name ≠ "text".toList) : children y name = (y.items.filter (fun t => !isTag "text".toList t)).filter (isTag name) := by
  rw [kids_eq, List.filter_filter]
  apply List.filter_congr
  intro t _
  cases e : isTag name t with
  | false => rfl
  | true =>
    have e1 := (Props.QSession.isTag_iff _ _).1 e
    cases e2 : isTag "text".toList t with
    | false => rfl
    | true =>
      have e3 := (Props.QSession.isTag_iff _ _).1 e2
      rw [e1] at e3
      exact absurd (Option.some.inj e3) hn

theorem shape {a b : List Tag} (h2 : 2 ≤ a.length) (h : a.eraseIdx 1 = b.eraseIdx 1) (hb : 2 ≤ b.length) : ∃ x y z ts, a = x :: y :: ts ∧ b = x :: z :: ts := by
  match a, b, h2, hb with
  | x :: y :: ts, x' :: z :: ts', _, _ =>
    simp only [List.eraseIdx_cons_succ, List.eraseIdx_cons_zero, List.cons.injEq] at h
    exact ⟨x, y, z, ts, rfl, by rw [← h.1, ← h.2]⟩

/-- What the symbol says, when only the value was changed. -/
theorem draws_after {c c' : Tag} {v : Str} {p p' : List Str} {w w' : Str} {sub sub' : Option Nat} {d : Dev} (hc : CompTag c) (hc' : CompTag c') (hr : restOf c' = restOf c)
    (hv : textAt c' 1 = some v) (h : Draws ⟨c, true, p, w, sub⟩ d) (ht : d.typ ≠ ['Ø']) : Draws ⟨c', true, p', w', sub'⟩ { d with value := v } := by
  obtain ⟨toks, y, rfl, _, _, hy⟩ := hc
  obtain ⟨toks', y', rfl, _, _, hy'⟩ := hc'
  obtain ⟨_, sym, e1, e2⟩ := h
  have es : ∀ (tk : List Str) (u : Tag), u.tokens.head? = some "symbol".toList → children (Tag.mk tk [u]) "symbol".toList = [u] := by
    intro tk u hu
    show [u].filter (isTag "symbol".toList) = [u]
    rw [List.filter_cons_of_pos ((Props.QSession.isTag_iff _ _).2 hu)]; rfl
  have : sym = y := by
    have := (es toks y hy.1).symm.trans e1
    simpa using this.symm
  subst this
  unfold restOf Tag.tokens Tag.items at hr
  simp only [List.map_cons, List.map_nil, Prod.mk.injEq, List.cons.injEq, and_true] at hr
  obtain ⟨_, r1, r2, r3⟩ := hr
  have r1 : y'.tokens = sym.tokens := r1
  have r2 : y'.items.filter (fun t => !isTag "text".toList t) = sym.items.filter (fun t => !isTag "text".toList t) := r2
  have r3 : (y'.items.filter (isTag "text".toList)).eraseIdx 1 = (sym.items.filter (isTag "text".toList)).eraseIdx 1 := r3
  have kid : ∀ name, name ≠ "text".toList → children y' name = children sym name := by
    intro name hn
    rw [kids_plain _ _ hn, kids_plain _ _ hn, r2]
  obtain ⟨f1, ⟨t0, t1, ts, f2, f3, f4⟩, f5⟩ := e2
  refine ⟨rfl, y', es _ _ hy'.1, ?_, ?_, ?_⟩
  · have k := kid "type:".toList (by decide)
    show Kind _ _ d.name d.typ
    generalize hn : d.name = n at f1
    generalize hty : d.typ = ty at f1
    cases f1 with
    | named h1 h2 h3 => exact .named (by unfold unquoted at h1 ⊢; rw [r1]; exact h1) (k.trans h2) h3
    | block h1 h2 => exact .block (by rw [r1]; exact h1) (by rw [k]; exact h2)
    | verilog => exact absurd hty ht
  · obtain ⟨x, q, z, us, g1, g2⟩ := shape hy'.2.2.2 r3 hy.2.2.2
    have f2' : sym.items.filter (isTag "text".toList) = t0 :: t1 :: ts := f2
    rw [g2] at f2'
    simp only [List.cons.injEq] at f2'
    refine ⟨x, q, us, g1, ?_, ?_⟩
    · have mq : q ∈ y'.items.filter (isTag "text".toList) := by rw [g1]; simp
      obtain ⟨m1, m2⟩ := List.mem_filter.1 mq
      have m3 := (Props.QSession.isTag_iff _ _).1 m2
      rw [text_unquoted ((hy'.2.2.1 q m1).2 m3) m3]
      have : textAt (Tag.mk toks' [y']) 1 = tagText q := by
        unfold textAt
        rw [symbolOf_comp hy']
        show ((y'.items.filter (isTag "text".toList))[1]?).bind tagText = tagText q
        rw [g1]; rfl
      rw [← this]; exact hv
    · rw [f2'.2.2]; exact f4
  · have k := kid "library file:".toList (by decide)
    rw [k]; exact f5

/-- **C112.** The netlist of an edited QSPICE schematic: after the session the saved file can be read, and the component still on the sheet says in it what it said before, with the value
that the calls about it gave it … -/
theorem C112_draws (s s' : Sch) (ops : List Op) (hs : SheetOk s) (hp : ParamsOk (texts s.items)) (ha : ∀ op ∈ ops, ArgsOk op) (h : run s ops = some s')
    (r : Str) (c : Tag) (hc : s.items.find? (isComp r) = some c) (ports0 : List Str) (sub0 : Option Nat) (value0 : Str) (d : Dev) (hd : Draws ⟨c, true, ports0, value0, sub0⟩ d) (ht : d.typ ≠ ['Ø'])
    (v : Str) (hv : ops.foldl (valueAfter r) (some d.value) = some v) :
    ∃ t rest c', readFile (fileOf s') = some (.ok (t, rest)) ∧ (opened t).items.find? (isComp r) = some c' ∧
      ∀ (ports : List Str) (value : Str) (sub : Option Nat), Draws ⟨c', true, ports, value, sub⟩ { d with value := v } := by
  obtain ⟨t, rest, h1, h2, h3, _⟩ := Props.QSession.C107_session s s' ops hs hp ha h
  obtain ⟨t', rest', g1, _, _, g2⟩ := Props.QSession.C107_frame s s' ops hs hp ha h
  rw [h1] at g1
  have e : t = t' := by injection g1 with g1; injection g1 with g1; exact congrArg Prod.fst g1
  subst e
  have hcc := found_comp hs hc
  have hval : getValue s r = some d.value := by
    obtain ⟨toks, y, rfl, _, _, hy⟩ := hcc
    obtain ⟨_, sym, e1, _, ⟨t0, t1, ts, f2, f3, _⟩, _⟩ := hd
    have ey : children (Tag.mk toks [y]) "symbol".toList = [y] := by
      show [y].filter (isTag "symbol".toList) = [y]
      rw [List.filter_cons_of_pos ((Props.QSession.isTag_iff _ _).2 hy.1)]; rfl
    have : sym = y := by simpa using (ey.symm.trans e1).symm
    subst this
    unfold getValue
    rw [hc]
    show textAt _ 1 = _
    unfold textAt
    rw [symbolOf_comp hy]
    show ((children sym "text".toList)[1]?).bind tagText = _
    have m1 : t1 ∈ children sym "text".toList := by rw [f2]; simp
    obtain ⟨m2, m3⟩ := List.mem_filter.1 m1
    have m4 : t1.tokens.head? = some "text".toList := by simpa using m3
    rw [f2]
    show tagText t1 = _
    rw [← text_unquoted ((hy.2.2.1 t1 m2).2 m4) m4]; exact f3
  have hv' : getValue (opened t) r = some v := by rw [h3 r, hval]; exact hv
  cases hf : (opened t).items.find? (isComp r) with
  | none => unfold getValue at hv'; rw [hf] at hv'; cases hv'
  | some c' =>
    obtain ⟨c0, k1, k2⟩ := g2 r c' hf
    rw [hc] at k1
    rw [← Option.some.inj k1] at k2
    refine ⟨t, rest, c', h1, hf, fun ports value sub => ?_⟩
    refine draws_after hcc (found_comp h2 hf) k2 ?_ hd ht
    unfold getValue at hv'
    rw [hf] at hv'
    exact hv'

/-- … so its line in the netlist written from that file is its reference, its nets, that value and its parameters. -/
theorem C112_line (config : List (Str × List Str)) (s s' : Sch) (ops : List Op) (hs : SheetOk s) (hp : ParamsOk (texts s.items)) (ha : ∀ op ∈ ops, ArgsOk op) (h : run s ops = some s')
    (r : Str) (c : Tag) (hc : s.items.find? (isComp r) = some c) (ports0 : List Str) (sub0 : Option Nat) (value0 : Str) (d : Dev) (hd : Draws ⟨c, true, ports0, value0, sub0⟩ d)
    (hs1 : d.typ ∉ special) (ht : d.typ ≠ []) (hl : d.lib.head? ≠ some '|') (hr : IsWord (shownRef r d.typ)) (hr0 : r ≠ [])
    (v : Str) (hv : ops.foldl (valueAfter r) (some d.value) = some v) :
    ∃ t rest c', readFile (fileOf s') = some (.ok (t, rest)) ∧ (opened t).items.find? (isComp r) = some c' ∧
      ∀ (ports : List Str) (value : Str) (sub : Option Nat), (∀ n ∈ ports, IsWord n) → (d.typ ≠ ['X'] ∨ sub = none) →
        ∃ o : Out, component config r ⟨c', true, ports, value, sub⟩ = some o ∧ words o.text = shownRef r d.typ :: ports ++ words v ++ paramWords d.params := by
  have hO : d.typ ≠ ['Ø'] := fun e => hs1 (by rw [e]; decide)
  obtain ⟨t, rest, c', h1, h2, h3⟩ := C112_draws s s' ops hs hp ha h r c hc ports0 sub0 value0 d hd hO v hv
  refine ⟨t, rest, c', h1, h2, fun ports value sub hn hx => ?_⟩
  obtain ⟨o, o1, o2, _⟩ := Props.QNetlist.C69_device config r ⟨c', true, ports, value, sub⟩ { d with value := v } (h3 ports value sub) hr hr0 ht hs1 hl hn hx
  exact ⟨o, o1, o2⟩

/-- A component that the session took off the sheet is not in the file: no component with its reference is left. -/
theorem C112_removed (s s' : Sch) (ops : List Op) (hs : SheetOk s) (hp : ParamsOk (texts s.items)) (ha : ∀ op ∈ ops, ArgsOk op) (h : run s ops = some s')
    (r : Str) (hv : ops.foldl (valueAfter r) (getValue s r) = none) :
    ∃ t rest, readFile (fileOf s') = some (.ok (t, rest)) ∧ ∀ c ∈ t.items, c.tokens.head? = some "component".toList → textAt c 0 ≠ some r := by
  obtain ⟨t, rest, h1, h2, h3, _⟩ := Props.QSession.C107_session s s' ops hs hp ha h
  refine ⟨t, rest, h1, fun c hc hcomp href => ?_⟩
  have hv' : getValue (opened t) r = none := by rw [h3 r]; exact hv
  cases hf : (opened t).items.find? (isComp r) with
  | none =>
    have := List.find?_eq_none.1 hf c hc
    apply this
    unfold isComp
    rw [(Props.QSession.isTag_iff _ _).2 hcomp, href]
    simp
  | some c' =>
    obtain ⟨w, e⟩ := Props.QSession.textAt_some (found_comp h2 hf)
    unfold getValue at hv'
    rw [hf] at hv'
    have hv' : textAt c' 1 = none := hv'
    rw [e] at hv'; cases hv'

theorem unqualify_bare (s : Str) : Model.QNetlist.unqualify s = Spec.QSession.bare s := by
  unfold Model.QNetlist.unqualify Spec.QSession.bare
  congr 1
  funext c
  simp [Bool.or_assoc]

theorem says_lines {x : Tag} {out : Str} (hx : x.tokens.head? = some "text".toList) (h : Spec.QNetlist.TextSays x out) : out = linesOf (Model.QSession.view x) := by
  obtain ⟨w, a, h1, h2, h3⟩ := h
  have e : Model.QSession.view x = ⟨decide (a = .int 1), w⟩ := by
    unfold Model.QSession.view tagText
    rw [if_pos hx, h1, h2]
    simp
  rw [e, h3]
  unfold linesOf
  simp only [unqualify_bare, decide_eq_true_eq]

theorem all_lines {l : List Tag} {outs : List Str} (hl : ∀ x ∈ l, x.tokens.head? = some "text".toList) (h : List.Forall₂ Spec.QNetlist.TextSays l outs) :
    outs = (l.map Model.QSession.view).map linesOf := by
  induction h with
  | nil => rfl
  | cons h hs ih =>
    rw [ih (fun x hx => hl x (by simp [hx])), says_lines (hl _ (by simp)) h]
    rfl

/-- The instructions in the netlist written from the saved file are those that the calls, one after the other, make of those of the sheet at the start, in their order. -/
theorem C112_instructions (s s' : Sch) (ops : List Op) (hs : SheetOk s) (hp : ParamsOk (texts s.items)) (ha : ∀ op ∈ ops, ArgsOk op) (h : run s ops = some s') :
    ∃ t rest ts, readFile (fileOf s') = some (.ok (t, rest)) ∧ Spec.QSession.TextsRun ops (texts s.items) ts ∧
      ∀ (config : List (Str × List Str)) (find : Str → Option Str) (path : Str) (comps : List (Str × Comp)) (subs : List Model.QNetlist.Sch) (text : Str),
        Model.QNetlist.saveNetlist config find path (.mk comps t subs) = some text →
        ∃ devices blocks libs, text = "* ".toList ++ path ++ "\n".toList ++ devices ++ blocks ++ (ts.map linesOf).flatten ++ libs ++ ".end\n".toList ∧
          ∃ outs : List Out, List.Forall₂ (fun p o => component config p.1 p.2 = some o) comps outs ∧ devices = (outs.map (fun o => o.text)).flatten := by
  obtain ⟨t, rest, h1, h2⟩ := Props.QSession.C107_texts s s' ops hs hp ha h
  refine ⟨t, rest, _, h1, h2, fun config find path comps subs text ht => ?_⟩
  obtain ⟨outs, blocks, libs, defs, txts, k1, _, _, k4, _, k6⟩ := Props.QNetlist.C69_layout config find path comps t subs text ht
  refine ⟨_, defs.flatten, (libs.map (fun l => ".lib ".toList ++ (find l).getD l ++ "\n".toList)).flatten, ?_, outs, k1, rfl⟩
  have e : txts = (texts t.items).map linesOf := all_lines (l := children t "text".toList) (fun x hx => by simpa using (List.mem_filter.1 hx).2) k4
  rw [← e]
  exact k6

open Props.QSession (exSheet exComp exOps exSheet_ok exSheet_params exOps_ok)

/-- The resistor of the sample sheet draws what it seems to. -/
theorem ex_draws : Draws ⟨exComp, true, [], [], none⟩ ⟨"R".toList, "R".toList, "1k".toList, [], []⟩ := by
  refine ⟨rfl, (.mk ["symbol".toList, "R".toList] [.mk ["type:".toList, "R".toList] [], Props.QSession.txt "(1,2)".toList "R1".toList, Props.QSession.txt "(1,3)".toList "1k".toList]),
    rfl, .named (tt := .mk ["type:".toList, "R".toList] []) (by decide +kernel) rfl rfl,
    ⟨Props.QSession.txt "(1,2)".toList "R1".toList, Props.QSession.txt "(1,3)".toList "1k".toList, [], rfl, by decide +kernel, rfl⟩, .inl ⟨rfl, rfl⟩⟩

/-- The theorem applies: the line of the resistor after the sample session, with the nets the wires give it. -/
theorem ex_line (s' : Sch) (h : run exSheet exOps = some s') : ∃ t rest c', readFile (fileOf s') = some (.ok (t, rest)) ∧ (opened t).items.find? (isComp "R1".toList) = some c' ∧
    ∃ o : Out, component [] "R1".toList ⟨c', true, ["N01".toList, "0".toList], "4.7k".toList, none⟩ = some o ∧ words o.text = ["R1".toList, "N01".toList, "0".toList, "4.7k".toList] := by
  obtain ⟨t, rest, c', h1, h2, h3⟩ := C112_line [] exSheet s' exOps exSheet_ok exSheet_params exOps_ok h "R1".toList exComp rfl [] none [] _ ex_draws (by decide +kernel) (by decide)
    (by decide) ⟨by decide +kernel, by decide +kernel⟩ (by decide) "4.7k".toList (by decide +kernel)
  refine ⟨t, rest, c', h1, h2, ?_⟩
  obtain ⟨o, o1, o2⟩ := h3 ["N01".toList, "0".toList] "4.7k".toList none (by intro n hn; simp only [List.mem_cons, List.not_mem_nil, or_false] at hn; rcases hn with rfl | rfl <;> exact ⟨by decide, by decide +kernel⟩) (.inr rfl)
  exact ⟨o, o1, by rw [o2]; decide +kernel⟩

theorem ex_run : (run exSheet exOps).isSome = true := by
  have h := Props.QSession.exOps_run
  cases e : run exSheet exOps with
  | none => rw [e] at h; cases h
  | some s => rfl

/-- The netlist of the sample sheet after the session. -/
theorem ex_netlist : (run exSheet exOps).map (fun s' => (Model.QNetlist.saveNetlist [] (fun _ => none) "/b.qsch".toList
      (.mk [("R1".toList, ⟨(s'.items.find? (isComp "R1".toList)).getD exComp, true, ["N01".toList, "0".toList], [], none⟩)] (.mk s'.toks s'.items) [])).map String.ofList) =
    some (some "* /b.qsch\nR1 N01 0 4.7k\n.param x=22\n.ac dec 10 1 1k\n.param new={2*x}\n.end\n") := by
  decide +kernel

end Props.QLine
