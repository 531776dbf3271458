import Verif.Props.QLine
import Verif.Props.QParts
/-!
The netlist of a QSPICE schematic after a session in which parameters of components are set too (C109 and C69).
-/
namespace Props.QPartsLine
open Model.Qsch (Tag readFile)
open Model.QSession (Sch fileOf opened isComp isTag textAt getValue texts)
open Model.QParts (Cmd getPart symbolTexts)
open Model.QNetlist (component Out Comp)
open Model.QComp (tagText)
open Spec.QSession (SheetOk ParamsOk CompTag SymbolTag TextTag restOf)
open Spec.QParts (HasPairs Legal Named Apart partsSaid)
open Spec.QNetlist (Draws Dev Kind Says children unquoted shownRef IsWord words paramWords special)
open Spec.SchComp (Pairs names)
open Props.QSession (symbolOf_comp found_comp isTag_iff)
open Props.QParts (Inv isText says_ part_done base_inv part_inv run_all inv_of)
open Props.QLine (text_unquoted kids_plain)

abbrev Str := List Char

/-- What the settings leave in the symbol: its own words, and every tag that is no text. -/
def bones (c : Tag) : List (List Str) × List (List Tag) := (c.items.map Tag.tokens, c.items.map (fun y => y.items.filter (fun t => !isText t)))

theorem step_bones {R : Str → Prop} {K : Str → Str → Prop} {s t : Sch} {c : Cmd} (hi : Inv R K s) (hl : Legal R K c) (h : Model.QParts.step s c = some t) (q : Str) (d' : Tag)
    (hd : t.items.find? (isComp q) = some d') : ∃ d, s.items.find? (isComp q) = some d ∧ bones d' = bones d := by
  cases c with
  | base op =>
    obtain ⟨d, h1, h2⟩ := Props.QSession.step_rest hi.ok hi.params hl.1 h q d' hd
    refine ⟨d, h1, ?_⟩
    unfold restOf at h2
    simp only [Prod.mk.injEq] at h2
    exact Prod.ext h2.2.1 h2.2.2.1
  | part x y r k v =>
    by_cases ho : ∃ c0, s.items.find? (isComp r) = some c0
    · obtain ⟨hr, hkk, hk, hx, hv⟩ := hl
      obtain ⟨ps, hps⟩ := hi.pairs r hr ho
      obtain ⟨c0, hc0⟩ := ho
      obtain ⟨_, _, _, val, _, _, _, _, hval⟩ := Props.QParts.found hi.ok hc0 hps
      obtain ⟨s', c, c', ps', h1, he, _, _, _, _, b1, b2⟩ := part_done x y hi.ok hps hval hk hx hv (hi.apart r k val hkk hval)
      rw [h] at h1
      obtain rfl := Option.some.inj h1
      obtain ⟨f1, f2⟩ := he.find q
      by_cases e : q = r
      · subst e
        rw [if_pos rfl, hd] at f2
        obtain rfl := Option.some.inj f2
        exact ⟨c, f1, Prod.ext b2 b1⟩
      · rw [if_neg e, hd] at f2
        exact ⟨d', f2.symm, rfl⟩
    · have e : t = s := by
        simp only [Model.QParts.step] at h
        unfold Model.QSession.onComp at h
        split at h
        · exact (Option.some.inj h).symm
        · exfalso
          obtain ⟨l, hl, _⟩ := Option.map_eq_some_iff.1 h
          obtain ⟨a, c, b, u, e1, e2, _⟩ := Props.QSession.updNth_zero hl
          apply ho
          have : (s.items.find? (isComp r)).isSome := by rw [List.find?_isSome]; exact ⟨c, by rw [e1]; simp, e2⟩
          exact Option.isSome_iff_exists.1 this
      subst e
      exact ⟨d', hd, rfl⟩

theorem run_bones {R : Str → Prop} {K : Str → Str → Prop} (cs : List Cmd) : ∀ (s s' : Sch), Inv R K s → (∀ c ∈ cs, Legal R K c) → Model.QParts.run s cs = some s' → ∀ (q : Str) (d' : Tag),
    s'.items.find? (isComp q) = some d' → ∃ d, s.items.find? (isComp q) = some d ∧ bones d' = bones d := by
  induction cs with
  | nil => intro s s' _ _ h q d' hd; simp only [Model.QParts.run, Option.some.injEq] at h; subst h; exact ⟨d', hd, rfl⟩
  | cons c cs ih =>
    intro s s' hi hl h q d' hd
    obtain ⟨t, g1, g2⟩ := Props.QParts.run_cons h
    have hc := hl c (by simp)
    have hit : Inv R K t := by
      cases c with
      | base op => exact base_inv hi hc g1
      | part x y r k v => exact (part_inv hi hc g1).1
    obtain ⟨d1, k1, k2⟩ := ih t s' hit (fun c hc => hl c (by simp [hc])) g2 q d' hd
    obtain ⟨d, k3, k4⟩ := step_bones hi hc g1 q d1 k1
    exact ⟨d, k3, k2.trans k4⟩

theorem one_symbol {toks : List Str} {y : Tag} (hy : SymbolTag y) : children (Tag.mk toks [y]) "symbol".toList = [y] := by
  show [y].filter (isTag "symbol".toList) = [y]
  rw [List.filter_cons_of_pos ((isTag_iff _ _).2 hy.1)]; rfl

/-- What the symbol says, given its texts and that only texts changed. -/
theorem draws_bones {c c' : Tag} {ref v : Str} {ts : List Str} {p p' : List Str} {w w' : Str} {sub sub' : Option Nat} {d : Dev} (hc : CompTag c) (hc' : CompTag c') (hb : bones c' = bones c)
    (ht : (Model.QSession.symbolOf c').map (fun y => (Model.QSession.kids "text".toList y.items).map (fun t => (tagText t).getD [])) = some (ref :: v :: ts))
    (h : Draws ⟨c, true, p, w, sub⟩ d) (hO : d.typ ≠ ['Ø']) : Draws ⟨c', true, p', w', sub'⟩ { d with value := v, params := ts } := by
  obtain ⟨toks, y, rfl, _, _, hy⟩ := hc
  obtain ⟨toks', y', rfl, _, _, hy'⟩ := hc'
  obtain ⟨_, sym, e1, e2⟩ := h
  have : sym = y := by simpa using ((one_symbol hy).symm.trans e1).symm
  subst this
  simp only [bones, Tag.items, List.map_cons, List.map_nil, Prod.mk.injEq, List.cons.injEq, and_true] at hb
  obtain ⟨r1, r2⟩ := hb
  have r2 : y'.items.filter (fun t => !isTag "text".toList t) = sym.items.filter (fun t => !isTag "text".toList t) := r2
  have kid : ∀ name, name ≠ "text".toList → children y' name = children sym name := by
    intro name hn
    rw [kids_plain _ _ hn, kids_plain _ _ hn, r2]
  rw [symbolOf_comp hy'] at ht
  simp only [Option.map_some, Option.some.injEq] at ht
  have hu : ∀ t ∈ children y' "text".toList, unquoted t 8 = some ((tagText t).getD []) := by
    intro t htm
    obtain ⟨m1, m2⟩ := List.mem_filter.1 htm
    have m3 : t.tokens.head? = some "text".toList := by simpa using m2
    have tt := (hy'.2.2.1 t m1).2 m3
    rw [text_unquoted tt m3]
    obtain ⟨s, e, _⟩ := Props.QSession.textTag_text tt m3
    rw [e]; rfl
  have ht : (children y' "text".toList).map (fun t => (tagText t).getD []) = ref :: v :: ts := ht
  obtain ⟨f1, _, f5⟩ := e2
  refine ⟨rfl, y', one_symbol hy', ?_, ?_, ?_⟩
  · have k := kid "type:".toList (by decide)
    show Kind _ _ d.name d.typ
    generalize hn : d.name = n at f1
    generalize hty : d.typ = ty at f1
    cases f1 with
    | named h1 h2 h3 => exact .named (by unfold unquoted at h1 ⊢; rw [r1]; exact h1) (k.trans h2) h3
    | block h1 h2 => exact .block (by rw [r1]; exact h1) (by rw [k]; exact h2)
    | verilog => exact absurd hty hO
  · generalize children y' "text".toList = l at ht hu
    match l, ht with
    | x :: q :: us, ht =>
      simp only [List.map_cons, List.cons.injEq] at ht
      refine ⟨x, q, us, rfl, ?_, ?_⟩
      · show unquoted q 8 = some v
        rw [hu q (by simp), ht.2.1]
      · show us.map _ = ts.map some
        rw [← ht.2.2, List.map_map]
        apply List.map_congr_left
        intro t ht
        exact hu t (by simp [ht])
  · have k := kid "library file:".toList (by decide)
    rw [k]; exact f5

/-- **C113.** After any session, also one that sets parameters of components, the saved file can be read, and a component still on the sheet says in it what it said before, with the value
given last and with parameter texts whose pairs are those the calls asked for (each parameter the value given last, none when it was removed last, as before when no call named it) … -/
theorem C113_draws (R : Str → Prop) (s s' : Sch) (cs : List Cmd) (hs : SheetOk s) (hp : ParamsOk (texts s.items))
    (hL : ∀ r c, R r → s.items.find? (isComp r) = some c → ∃ ps, HasPairs s r ps) (hA : Apart (Named cs) s) (hl : ∀ c ∈ cs, Legal R (Named cs) c) (h : Model.QParts.run s cs = some s')
    (r : Str) (hr : R r) (c : Tag) (hc : s.items.find? (isComp r) = some c) (ports0 : List Str) (sub0 : Option Nat) (value0 : Str) (d : Dev) (hd : Draws ⟨c, true, ports0, value0, sub0⟩ d)
    (hO : d.typ ≠ ['Ø']) (v : Str) (hv : (Spec.QParts.others cs).foldl (Spec.QSession.valueAfter r) (getValue s r) = some v) :
    ∃ (t : Tag) (rest : Str) (c' : Tag) (ts : List Str) (pss : List Pairs), readFile (fileOf s') = some (.ok (t, rest)) ∧ (opened t).items.find? (isComp r) = some c' ∧
      List.Forall₂ Spec.QComp.Shows ts pss ∧ (∀ k, pss.flatten.lookup k = Spec.SchComp.valueAfter id k (getPart s r k) (partsSaid r cs)) ∧
      ∀ (ports : List Str) (value : Str) (sub : Option Nat), Draws ⟨c', true, ports, value, sub⟩ { d with value := v, params := ts } := by
  have hi0 := inv_of hs hp hL hA
  obtain ⟨hi, parts, val, _⟩ := run_all R (Named cs) cs s s' hi0 hl h
  have hval : getValue s' r = some v := by rw [val]; exact hv
  cases hf : s'.items.find? (isComp r) with
  | none => unfold getValue at hval; rw [hf] at hval; cases hval
  | some c' =>
    obtain ⟨ps, hps⟩ := hi.pairs r hr ⟨c', hf⟩
    obtain ⟨c0, k1, k2⟩ := run_bones cs s s' hi0 hl h r c' hf
    rw [hc] at k1
    rw [← Option.some.inj k1] at k2
    have hpe := hps.shows
    obtain ⟨ref, w, ts, pss, e, g1, rfl, _⟩ := hpe
    have hcc' := found_comp hi.ok hf
    unfold symbolTexts at e
    rw [hf, Option.bind_some] at e
    have hw : w = v := by
      obtain ⟨toks', y', rfl, _, _, hy'⟩ := hcc'
      obtain ⟨ytoks, yitems⟩ := y'
      unfold getValue at hval
      rw [hf, Option.bind_some, Props.QParts.textAt_eq hy'] at hval
      rw [symbolOf_comp hy'] at e
      simp only [Option.map_some, Option.some.injEq] at e
      have e : (yitems.filter isText).map says_ = ref :: w :: ts := e
      rw [e] at hval
      simpa using hval
    subst hw
    refine ⟨_, _, c', ts, pss, Props.QSession.file_read hi.ok, hf, g1, ?_, fun ports value sub => draws_bones (found_comp hs hc) hcc' k2 e hd hO⟩
    intro k
    rw [← Props.QParts.part_eq hps, (parts r hr ⟨c', hf⟩).2 k]

/-- … so its line in the netlist is its reference, its nets, that value and those parameters. -/
theorem C113_line (config : List (Str × List Str)) (R : Str → Prop) (s s' : Sch) (cs : List Cmd) (hs : SheetOk s) (hp : ParamsOk (texts s.items))
    (hL : ∀ r c, R r → s.items.find? (isComp r) = some c → ∃ ps, HasPairs s r ps) (hA : Apart (Named cs) s) (hl : ∀ c ∈ cs, Legal R (Named cs) c) (h : Model.QParts.run s cs = some s')
    (r : Str) (hr : R r) (c : Tag) (hc : s.items.find? (isComp r) = some c) (ports0 : List Str) (sub0 : Option Nat) (value0 : Str) (d : Dev) (hd : Draws ⟨c, true, ports0, value0, sub0⟩ d)
    (hs1 : d.typ ∉ special) (ht : d.typ ≠ []) (hlib : d.lib.head? ≠ some '|') (hw : IsWord (shownRef r d.typ)) (hr0 : r ≠ [])
    (v : Str) (hv : (Spec.QParts.others cs).foldl (Spec.QSession.valueAfter r) (getValue s r) = some v) :
    ∃ (t : Tag) (rest : Str) (c' : Tag) (ts : List Str) (pss : List Pairs), readFile (fileOf s') = some (.ok (t, rest)) ∧ (opened t).items.find? (isComp r) = some c' ∧
      List.Forall₂ Spec.QComp.Shows ts pss ∧ (∀ k, pss.flatten.lookup k = Spec.SchComp.valueAfter id k (getPart s r k) (partsSaid r cs)) ∧
      ∀ (ports : List Str) (value : Str) (sub : Option Nat), (∀ n ∈ ports, IsWord n) → (d.typ ≠ ['X'] ∨ sub = none) →
        ∃ o : Out, component config r ⟨c', true, ports, value, sub⟩ = some o ∧ words o.text = shownRef r d.typ :: ports ++ words v ++ paramWords ts := by
  have hO : d.typ ≠ ['Ø'] := fun e => hs1 (by rw [e]; decide)
  obtain ⟨t, rest, c', ts, pss, h1, h2, h3, h4, h5⟩ := C113_draws R s s' cs hs hp hL hA hl h r hr c hc ports0 sub0 value0 d hd hO v hv
  refine ⟨t, rest, c', ts, pss, h1, h2, h3, h4, fun ports value sub hn hx => ?_⟩
  obtain ⟨o, o1, o2, _⟩ := Props.QNetlist.C69_device config r ⟨c', true, ports, value, sub⟩ { d with value := v, params := ts } (h5 ports value sub) hw hr0 ht hs1 hlib hn hx
  exact ⟨o, o1, o2⟩

open Props.QSession (exSheet exComp exSheet_ok exSheet_params)
open Props.QParts (exCmds ex_find ex_pairs ex_apart ex_legal)

/-- The theorem applies: the line of the resistor after the sample session … -/
theorem ex_line (s' : Sch) (h : Model.QParts.run exSheet exCmds = some s') :
    ∃ (t : Tag) (rest : Str) (c' : Tag) (ts : List Str) (pss : List Pairs), readFile (fileOf s') = some (.ok (t, rest)) ∧ (opened t).items.find? (isComp "R1".toList) = some c' ∧
      List.Forall₂ Spec.QComp.Shows ts pss ∧ pss.flatten.lookup "tol".toList = some "5m".toList ∧ pss.flatten.lookup "tc".toList = none ∧
      ∃ o : Out, component [] "R1".toList ⟨c', true, ["N01".toList, "0".toList], [], none⟩ = some o ∧ words o.text = ["R1".toList, "N01".toList, "0".toList, "4.7k".toList] ++ paramWords ts := by
  obtain ⟨t, rest, c', ts, pss, h1, h2, h3, h4, h5⟩ := C113_line [] (· = "R1".toList) exSheet s' exCmds exSheet_ok exSheet_params
    (fun r c hr _ => ⟨[], by rw [show r = _ from hr]; exact ex_pairs⟩) ex_apart ex_legal h "R1".toList rfl exComp ex_find [] none [] _ Props.QLine.ex_draws (by decide +kernel) (by decide)
    (by decide) ⟨by decide +kernel, by decide +kernel⟩ (by decide) "4.7k".toList (by decide +kernel)
  refine ⟨t, rest, c', ts, pss, h1, h2, h3, ?_, ?_, ?_⟩
  · rw [h4]; decide +kernel
  · rw [h4]; decide +kernel
  · obtain ⟨o, o1, o2⟩ := h5 ["N01".toList, "0".toList] [] none (by intro n hn; simp only [List.mem_cons, List.not_mem_nil, or_false] at hn; rcases hn with rfl | rfl <;> exact ⟨by decide, by decide +kernel⟩) (.inr rfl)
    refine ⟨o, o1, ?_⟩
    rw [o2]
    have e : words "4.7k".toList = ["4.7k".toList] := by decide +kernel
    have e2 : shownRef "R1".toList "R".toList = "R1".toList := by decide +kernel
    rw [e, e2]; rfl

/-- … as it is written. -/
theorem ex_text : (Model.QParts.run exSheet exCmds).bind (fun s' => (s'.items.find? (isComp "R1".toList)).bind (fun c' =>
      (component [] "R1".toList ⟨c', true, ["N01".toList, "0".toList], [], none⟩).map (fun o => String.ofList o.text))) = some "R1 N01 0 4.7k tol=5m\n" := by
  decide +kernel

end Props.QPartsLine
