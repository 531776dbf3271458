import Verif.Props.AscSession
import Verif.Props.SchComp
import Verif.Spec.AscParts
/-
C108: sessions on LTspice schematics in which the parameters of components are set.
-/
namespace Props.AscParts
open Model.Asc (Sch Comp AttrVal save dset)
open Model.PyStr (strip isSpace)
open Model.AscSession (Op getComp getAttr getSymbol getPlace textOf)
open Model.AscParts
open Model.SchComp (Dict Attr setKeys setKey spiceLine spiceLine2 known reduced getParameters)
open Spec.SchComp (Lines Pairs Texts IsLine names lineText LegalAll valueAfter)
open Spec.AscParts
open Spec.AscFile (WellFormed CompOk AttrOk WindowOk settled)
open Spec.AscSession (Savable ArgsOk ParamsOk attrSaid symbolSaid placeAfter paramSaid last)
open Props.SchComp (Has Holds Changed key_set keys_set stripAll setAll lookup_put lookup_mem lookup_none)
open Model.ParamRegex (ascGet)

abbrev Str := List Char

/-! #### attributes as a dictionary -/

theorem dict_keys (l : List (Str × AttrVal)) : (dict l).map Prod.fst = l.map Prod.fst := by simp [dict, Function.comp_def]

theorem dict_lookup (l : List (Str × AttrVal)) (k : Str) : (dict l).lookup k = (l.lookup k).map (fun a => match a with | .str s => Attr.text s | .text _ => Attr.other 0) := by
  induction l with
  | nil => rfl
  | cons p l ih =>
    obtain ⟨k', a⟩ := p
    simp only [dict, List.map_cons, List.lookup]
    by_cases h : k = k'
    · subst h; simp only [beq_self_eq_true, Option.map_some]; cases a <;> rfl
    · simp only [beq_eq_false_iff_ne.2 h]; exact ih

theorem back_spec (old : List (Str × AttrVal)) (d : Dict Attr) (h : ∀ k a, (k, a) ∈ d → (∃ s, a = .text s) ∨ (a = .other 0 ∧ ∃ t, old.lookup k = some (.text t))) :
    ∃ l, back old d = some l ∧ dict l = d ∧ ∀ k t, (k, AttrVal.text t) ∈ l → old.lookup k = some (.text t) := by
  induction d with
  | nil => exact ⟨[], rfl, rfl, by simp⟩
  | cons e d ih =>
    obtain ⟨k, a⟩ := e
    obtain ⟨l, h1, h2, h3⟩ := ih (fun k a hm => h k a (List.mem_cons_of_mem _ hm))
    rcases h k a (by simp) with ⟨s, rfl⟩ | ⟨rfl, t, ht⟩
    · refine ⟨(k, .str s) :: l, by simp [back, h1], by rw [← h2]; rfl, ?_⟩
      intro k' t hm
      simp only [List.mem_cons, Prod.mk.injEq, reduceCtorEq, and_false, false_or] at hm
      exact h3 k' t hm
    · refine ⟨(k, .text t) :: l, by simp [back, h1, ht], by rw [← h2]; rfl, ?_⟩
      intro k' t' hm
      simp only [List.mem_cons, Prod.mk.injEq, AttrVal.text.injEq] at hm
      rcases hm with ⟨rfl, rfl⟩ | hm
      · exact ht
      · exact h3 k' t' hm

theorem reduced_cases (k : Str) : k ∈ reduced ↔ Holder k := by
  unfold Holder; simp only [reduced, List.mem_cons, List.not_mem_nil, or_false]; exact Iff.rfl

/-- In a sheet that can be saved, the lines of a component are its attributes of these names. -/
theorem holder_lookup {s : Sch} (hw : WellFormed s) {r : Str} {c : Comp} (hc : getComp s r = some c) (k : Str) (hk : Holder k) :
    (dict c.attrs).lookup k = (getAttr s r k).map .text := by
  rw [dict_lookup]
  unfold getAttr
  rw [hc]
  simp only [Option.bind_some, textOf]
  cases hl : c.attrs.lookup k with
  | none => rfl
  | some v =>
    cases v with
    | str v => rfl
    | text t =>
      exfalso
      have hm := Lemmas.Analysis.mem_of_lookup hl
      rcases (hw.comps _ (Props.AscSession.getComp_mem hc).1).2.attrs _ hm with ⟨n, t', e, _⟩ | ⟨k', v', e, _⟩
      · have e := congrArg Prod.fst e
        simp only at e
        rcases hk with rfl | rfl <;> (have := congrArg List.head? e; simp at this)
      · cases e

theorem has_of_lines {good : Str → Prop} {s : Sch} (hw : WellFormed s) {r : Str} {c : Comp} (hc : getComp s r = some c) {l : Lines} (h : HasLines good s r l) :
    Has (dict c.attrs) l := by
  have key : ∀ k o, Holder k → Reads (getAttr s r k) o → Holds ((dict c.attrs).lookup k) o := by
    intro k o hk hr
    rw [holder_lookup hw hc k hk]
    rcases hr with ⟨e1, e2⟩ | ⟨t, ps, e1, e2, e3⟩
    · exact .inl ⟨by rw [e1]; rfl, e2⟩
    · exact .inr ⟨t, ps, by rw [e1]; rfl, e2, e3⟩
  exact ⟨by rw [dict_keys]; exact Props.AscSession.comp_keys hw hc, key _ _ (.inl rfl) h.one, key _ _ (.inr rfl) h.two, h.distinct, h.plain⟩

theorem lines_of_has {good : Str → Prop} {s : Sch} (hw : WellFormed s) {r : Str} {c : Comp} (hc : getComp s r = some c) {l : Lines} (h : Has (dict c.attrs) l)
    (hg : ∀ p ∈ l.pairs, good p.2) : HasLines good s r l := by
  have key : ∀ k o, Holder k → Holds ((dict c.attrs).lookup k) o → Reads (getAttr s r k) o := by
    intro k o hk hr
    rw [holder_lookup hw hc k hk] at hr
    rcases hr with ⟨e1, e2⟩ | ⟨t, ps, e1, e2, e3⟩
    · refine .inl ⟨?_, e2⟩
      cases h : getAttr s r k with
      | none => rfl
      | some v => rw [h] at e1; cases e1
    · refine .inr ⟨t, ps, ?_, e2, e3⟩
      cases h : getAttr s r k with
      | none => rw [h] at e1; cases e1
      | some v => rw [h] at e1; simp only [Option.map_some, Option.some.injEq, Attr.text.injEq] at e1; rw [e1]
  exact ⟨key _ _ (.inl rfl) h.one, key _ _ (.inr rfl) h.two, h.distinct, h.plain, hg⟩

/-! #### what is written can be saved -/

theorem lineText_savable (ps : Pairs) (h1 : ∀ p ∈ ps, Spec.ParamLine.Name p.1 ∧ Spec.ParamLine.Value p.2) (h2 : ∀ p ∈ ps, '\n' ∉ p.2) (h0 : ps ≠ []) : Savable (lineText ps) := by
  have hlast : ∃ c, (lineText ps).getLast? = some c ∧ isSpace c = false := by
    clear h2
    induction ps with
    | nil => exact absurd rfl h0
    | cons p ps ih =>
      cases ps with
      | nil =>
        obtain ⟨c, a, b⟩ := Props.AscSession.value_last p.2 (h1 p (by simp)).2
        refine ⟨c, ?_, b⟩
        have : lineText [p] = (p.1 ++ ['=']) ++ p.2 := by simp [lineText]
        rw [this, List.getLast?_append, a]; rfl
      | cons q ps =>
        obtain ⟨c, a, b⟩ := ih (fun p hp => h1 p (List.mem_cons_of_mem _ hp)) (by simp)
        refine ⟨c, ?_, b⟩
        have : lineText (p :: q :: ps) = (p.1 ++ '=' :: p.2 ++ [' ']) ++ lineText (q :: ps) := by simp [lineText, List.intercalate_cons_cons]
        rw [this, List.getLast?_append, a]; rfl
  have hnl : '\n' ∉ lineText ps := by
    clear h0 hlast
    induction ps with
    | nil => simp [lineText]
    | cons p ps ih =>
      have hp : '\n' ∉ p.1 ++ '=' :: p.2 := by
        intro hm
        rcases List.mem_append.1 hm with hm | hm
        · exact Props.AscSession.nameChar_visible _ ((h1 p (by simp)).1.2 _ hm) rfl
        · rcases List.mem_cons.1 hm with hm | hm
          · cases hm
          · exact h2 p (by simp) hm
      cases ps with
      | nil => simpa [lineText] using hp
      | cons q ps =>
        have := ih (fun p hp => h1 p (List.mem_cons_of_mem _ hp)) (fun p hp => h2 p (List.mem_cons_of_mem _ hp))
        have e : lineText (p :: q :: ps) = (p.1 ++ '=' :: p.2) ++ ' ' :: lineText (q :: ps) := by simp [lineText, List.intercalate_cons_cons]
        rw [e]
        intro hm
        rcases List.mem_append.1 hm with hm | hm
        · exact hp hm
        · rcases List.mem_cons.1 hm with hm | hm
          · cases hm
          · exact this hm
  have hhead : ∀ c, (lineText ps).head? = some c → isSpace c = false := by
    intro c hc
    cases ps with
    | nil => exact absurd rfl h0
    | cons p ps =>
      have hn := (h1 p (by simp)).1
      have : (lineText (p :: ps)).head? = p.1.head? := by
        obtain ⟨d, n, e⟩ : ∃ d n, p.1 = d :: n := by
          cases e : p.1 with
          | nil => exact absurd e hn.1
          | cons d n => exact ⟨d, n, rfl⟩
        cases ps with
        | nil => simp [lineText, e]
        | cons q ps => simp [lineText, List.intercalate_cons_cons, e]
      rw [this] at hc
      have hw := (Lemmas.ParamRegex.word_iff c).2 (hn.2 c (List.mem_of_mem_head? hc))
      cases hs : isSpace c with
      | false => rfl
      | true => rw [(Lemmas.ParamRegex.space_facts c hs).1] at hw; cases hw
  refine ⟨?_, hhead, ?_, hnl⟩
  · intro e; rw [e] at hlast; obtain ⟨c, a, _⟩ := hlast; cases a
  · intro c hc
    obtain ⟨d, a, b⟩ := hlast
    rw [a] at hc; cases hc; exact b

/-! #### one call -/

/-- Every line of the component can be saved. -/
def LinesSavable (c : Dict Attr) : Prop := ∀ k, Holder k → ∀ t, c.lookup k = some (.text t) → Savable t

theorem has_names {c : Dict Attr} {l : Lines} (h : Has c l) : ∀ p ∈ l.pairs, Spec.ParamLine.Name p.1 := by
  intro p hp
  rcases (Props.SchComp.pairs_mem l p).1 hp with ⟨ps, e, m⟩ | ⟨ps, e, m⟩
  · rcases h.one with ⟨_, n⟩ | ⟨s, qs, _, n, i⟩
    · rw [e] at n; cases n
    · rw [e] at n; cases n; exact (Props.SchComp.line_names_ok s ps i p m).1
  · rcases h.two with ⟨_, n⟩ | ⟨s, qs, _, n, i⟩
    · rw [e] at n; cases n
    · rw [e] at n; cases n; exact (Props.SchComp.line_names_ok s ps i p m).1

theorem has_lines_some {c : Dict Attr} {l : Lines} (h : Has c l) (ps : Pairs) (e : l.one = some ps ∨ l.two = some ps) : ps ≠ [] := by
  rcases e with e | e
  · rcases h.one with ⟨_, n⟩ | ⟨s, qs, _, n, i⟩
    · rw [e] at n; cases n
    · rw [e] at n; cases n; exact i.some
  · rcases h.two with ⟨_, n⟩ | ⟨s, qs, _, n, i⟩
    · rw [e] at n; cases n
    · rw [e] at n; cases n; exact i.some

/-- Values without a line break. -/
def OneLine {β : Type} (T : Texts β) : Prop := ∀ v, T.good v → '\n' ∉ v

theorem key_savable {β : Type} (T : Texts β) (hT : OneLine T) {c c' : Dict Attr} {l : Lines} {k : Str} {v : Option Str} {u} (hc : Changed T.norm c c' l k v u)
    (h' : Has c' (l.set T.norm k v)) (hg : ∀ p ∈ (l.set T.norm k v).pairs, T.good p.2) (hs : LinesSavable c) : LinesSavable c' := by
  have txt : ∀ ps, ((l.set T.norm k v).one = some ps ∨ (l.set T.norm k v).two = some ps) → Savable (lineText ps) := by
    intro ps e
    have sub : ∀ p ∈ ps, p ∈ (l.set T.norm k v).pairs := by
      intro p hp
      rw [Props.SchComp.pairs_mem]
      rcases e with e | e
      · exact .inl ⟨ps, e, hp⟩
      · exact .inr ⟨ps, e, hp⟩
    exact lineText_savable ps (fun p hp => ⟨has_names h' p (sub p hp), T.value _ (hg p (sub p hp))⟩) (fun p hp => hT _ (hg p (sub p hp))) (has_lines_some h' ps e)
  intro a ha t ht
  rcases ha with rfl | rfl
  · have e := hc.one
    have h1 := h'.one
    have ht : c'.lookup spiceLine = some (.text t) := ht
    rw [ht] at e h1
    split at e
    · rcases h1 with ⟨x, _⟩ | ⟨s, ps, x, y, _⟩
      · cases x
      · rw [y] at e
        simp only [Option.some.injEq, Attr.text.injEq, Option.getD_some] at e
        rw [e]; exact txt ps (.inl y)
    · exact hs _ (.inl rfl) t e.symm
  · have e := hc.two
    have h1 := h'.two
    have ht : c'.lookup spiceLine2 = some (.text t) := ht
    rw [ht] at e h1
    split at e
    · rcases h1 with ⟨x, _⟩ | ⟨s, ps, x, y, _⟩
      · cases x
      · rw [y] at e
        simp only [Option.some.injEq, Attr.text.injEq, Option.getD_some] at e
        rw [e]; exact txt ps (.inr y)
    · exact hs _ (.inr rfl) t e.symm

theorem keys_savable {β : Type} (T : Texts β) (hT : OneLine T) (ref : Str) : ∀ (kvs : Dict (Option Str)) (kind) (c : Dict Attr) (calls) (l : Lines),
    Has c l → (∀ p ∈ l.pairs, T.good p.2) → (∀ e ∈ kvs, e.1 ∉ known) → LegalAll T.norm T.good l (stripAll kvs) → LinesSavable c →
    LinesSavable (setKeys T.norm ref kvs kind c calls).1 := by
  intro kvs
  induction kvs with
  | nil => intro kind c calls l _ _ _ _ hs; exact hs
  | cons e kvs ih =>
    intro kind c calls l h hg hk hl hs
    obtain ⟨k, v⟩ := e
    obtain ⟨c1, u, b, e1, ch, hh⟩ := key_set T c l h hg k (hk (k, v) (by simp)) (v.map strip) hl.1 kind
    have hg' := Props.SchComp.set_good T l k _ hg hl.1
    simp only [setKeys, e1]
    exact ih (some u) c1 _ _ hh hg' (fun e he => hk e (by simp [he])) hl.2 (key_savable T hT ch hh hg' hs)

theorem attribute_known (k : Str) : k ∈ known ↔ Attribute k := Iff.rfl

/-- A legal call: it is accepted; the lines of the component are as they should be, everything else is as before. -/
theorem parts_step {β : Type} (T : Texts β) (hT : OneLine T) {s : Sch} (hw : WellFormed s) {r : Str} {c : Comp} (hc : getComp s r = some c) {l : Lines}
    (h : HasLines T.good s r l) (kvs : Dict (Option Str)) (hk : ∀ e ∈ kvs, ¬ Attribute e.1) (hl : LegalAll T.norm T.good l (settings kvs)) :
    ∃ a, setParts T.norm s r kvs = some (Model.AscSession.put s r (fun c => { c with attrs := a })) ∧ CompOk { c with attrs := a } ∧
      Has (dict a) (linesAfter T.norm l (settings kvs)) ∧ (∀ p ∈ (linesAfter T.norm l (settings kvs)).pairs, T.good p.2) ∧ ∀ k, ¬ Holder k → a.lookup k = c.attrs.lookup k := by
  have hH := has_of_lines hw hc h
  have hs : LinesSavable (dict c.attrs) := by
    intro k hk t ht
    rw [dict_lookup] at ht
    cases hx : c.attrs.lookup k with
    | none => rw [hx] at ht; cases ht
    | some v =>
      have hm := Lemmas.Analysis.mem_of_lookup hx
      rcases (hw.comps _ (Props.AscSession.getComp_mem hc).1).2.attrs _ hm with ⟨n, t', e, _⟩ | ⟨k', v', e, _, _, _, e2, e3, _⟩
      · cases e; rw [hx] at ht; cases ht
      · cases e
        rw [hx] at ht
        simp only [Option.map_some, Option.some.injEq, Attr.text.injEq] at ht
        subst ht
        exact ⟨e2, e3⟩
  obtain ⟨d, calls', e1, h1, g1, r1⟩ := keys_set T r kvs none (dict c.attrs) [] l hH h.good hk hl
  have hs' := keys_savable T hT r kvs none (dict c.attrs) [] l hH h.good hk hl hs
  rw [e1] at hs'
  have old : ∀ k a, (k, a) ∈ d → (∃ s, a = .text s) ∨ (a = .other 0 ∧ ∃ t, c.attrs.lookup k = some (.text t)) := by
    intro k a hm
    have hl := (lookup_mem d h1.keys k a).1 hm
    by_cases hr : k ∈ reduced
    · exact .inl (Props.SchComp.reduced_text d _ h1 k hr a hm)
    · rw [r1 k hr, dict_lookup] at hl
      cases hx : c.attrs.lookup k with
      | none => rw [hx] at hl; cases hl
      | some v =>
        rw [hx] at hl
        cases v with
        | str t => exact .inl ⟨t, by simpa using hl.symm⟩
        | text t => exact .inr ⟨by simpa using hl.symm, t, rfl⟩
  obtain ⟨a, b1, b2, b3⟩ := back_spec c.attrs d old
  have hkeys : (a.map Prod.fst).Nodup := by rw [← dict_keys, b2]; exact h1.keys
  have hrest : ∀ k, ¬ Holder k → a.lookup k = c.attrs.lookup k := by
    intro k hk
    have e := r1 k (fun h => hk ((reduced_cases k).1 h))
    rw [← b2, dict_lookup, dict_lookup] at e
    cases hx : a.lookup k with
    | none =>
      rw [hx] at e
      cases hy : c.attrs.lookup k with
      | none => rfl
      | some w => rw [hy] at e; cases e
    | some v =>
      cases v with
      | text t => exact (b3 k t (Lemmas.Analysis.mem_of_lookup hx)).symm
      | str t =>
        rw [hx] at e
        cases hy : c.attrs.lookup k with
        | none => rw [hy] at e; cases e
        | some w =>
          rw [hy] at e
          cases w with
          | text t' => simp at e
          | str t' => simp at e; rw [e]
  have hok := (hw.comps _ (Props.AscSession.getComp_mem hc).1).2
  refine ⟨a, ?_, ⟨hok.symbol, hok.rot, hok.reference, ?_, hkeys⟩, by rw [b2]; exact h1, g1, hrest⟩
  · simp only [setParts, hc, Option.bind_some, e1, b1, Option.map_some]
  · rintro ⟨k, v⟩ hm
    have hlk : a.lookup k = some v := (Props.SchComp.lookup_mem a hkeys k v).1 hm
    by_cases hk : Holder k
    · cases v with
      | text t' =>
        have hd : d.lookup k = some (.other 0) := by rw [← b2, dict_lookup, hlk]; rfl
        obtain ⟨t, ht⟩ := Props.SchComp.reduced_text d _ h1 k ((reduced_cases k).2 hk) _ ((lookup_mem d h1.keys k _).2 hd)
        cases ht
      | str t' =>
        have hd : d.lookup k = some (.text t') := by rw [← b2, dict_lookup, hlk]; rfl
        have hsv := hs' k hk t' hd
        obtain ⟨w1, w2, w3, w4⟩ := Props.AscSession.known_ok k (by rcases hk with rfl | rfl <;> decide +kernel)
        exact .inr ⟨k, t', rfl, w1, w2, w3, hsv.1, hsv.2, fun e => absurd e w4⟩
    · rw [hrest k hk] at hlk
      exact hok.attrs _ (Lemmas.Analysis.mem_of_lookup hlk)

/-! #### what is read -/

theorem getPart_eq {good : Str → Prop} {s : Sch} (hw : WellFormed s) {r : Str} {c : Comp} (hc : getComp s r = some c) {l : Lines} (h : HasLines good s r l) (k : Str) (hk : ¬ Attribute k) :
    getPart s r k = l.pairs.lookup k := by
  obtain ⟨d, e, h1, _⟩ := Props.SchComp.C65_get ⟨.inform, [(r, dict c.attrs)], []⟩ r (dict c.attrs) (by simp [Model.SchComp.Ed.get, List.lookup]) l (has_of_lines hw hc h)
  simp only [Model.SchComp.getComponentParameters, Model.SchComp.Ed.get, List.lookup, beq_self_eq_true] at e
  unfold getPart
  rw [hc]
  simp only [Option.bind_some]
  cases hg : getParameters (dict c.attrs) with
  | none => rw [hg] at e; cases e
  | some d' =>
    rw [hg] at e
    simp only [Except.ok.injEq] at e
    subst e
    simp only [Option.bind_some, h1 k hk]
    cases l.pairs.lookup k <;> rfl

/-! #### one step -/

theorem getComp_back {s s' : Sch} {op : Op} (hw : WellFormed s) (h : Model.AscSession.step s op = some s') {r : Str} (hr : ∃ c, getComp s' r = some c) : ∃ c, getComp s r = some c := by
  obtain ⟨c', hc'⟩ := hr
  obtain ⟨hm, hcol⟩ := Props.AscSession.getComp_mem hc'
  have hk : r ∈ s'.comps.map Prod.fst := List.mem_map.2 ⟨_, hm, rfl⟩
  rw [Props.AscSession.step_refs hw h] at hk
  have hk := (List.mem_filter.1 hk).1
  unfold getComp
  rw [if_neg hcol]
  cases hl : s.comps.lookup r with
  | some c => exact ⟨c, rfl⟩
  | none => exact absurd hk ((lookup_none s.comps r).1 hl)

theorem base_lines {good : Str → Prop} {s s' : Sch} {op : Op} (hw : WellFormed s) (h : Model.AscSession.step s op = some s') {r : Str} (hr : ∃ c, getComp s' r = some c)
    (hop : ∀ k v, Holder k → op ≠ .attr r k v) {l : Lines} (hl : HasLines good s r l) : HasLines good s' r l := by
  have same : ∀ k, Holder k → getAttr s' r k = getAttr s r k := by
    intro k hk
    rw [Props.AscSession.step_attr hw h r k]
    have : attrSaid r k op = none := by
      cases op with
      | value r' v =>
        have : ¬ (r' = r ∧ k = "Value".toList) := by rintro ⟨_, e⟩; rcases hk with rfl | rfl <;> exact absurd e (by decide)
        simp only [attrSaid, if_neg this]
      | attr r' k' v =>
        have : ¬ (r' = r ∧ k' = k) := by rintro ⟨rfl, rfl⟩; exact hop k' v hk rfl
        simp only [attrSaid, if_neg this]
      | remove r' =>
        have : ¬ r' = r := by
          rintro rfl
          obtain ⟨c, hc⟩ := hr
          have hm := (Props.AscSession.getComp_mem hc).1
          have hk : r' ∈ s'.comps.map Prod.fst := List.mem_map.2 ⟨_, hm, rfl⟩
          rw [Props.AscSession.step_refs hw h] at hk
          exact absurd (List.mem_filter.1 hk).2 (by simp [Spec.AscSession.Removes])
        simp only [attrSaid, if_neg this]
      | _ => rfl
    rw [this]; rfl
  exact ⟨by rw [same _ (.inl rfl)]; exact hl.one, by rw [same _ (.inr rfl)]; exact hl.two, hl.distinct, hl.plain, hl.good⟩

/-- What is known during a session. -/
structure Inv {β : Type} (T : Texts β) (R : Str → Prop) (L : Str → Lines) (s : Sch) : Prop where
  wf : WellFormed s
  params : ParamsOk s
  lines : ∀ r, R r → (∃ c, getComp s r = some c) → HasLines T.good s r (L r)

/-- What a call that sets parameters does to everything else. -/
structure Framed (s s' : Sch) (r : Str) : Prop where
  attr : ∀ r' k, ¬ (r' = r ∧ Holder k) → getAttr s' r' k = getAttr s r' k
  symbol : ∀ r', getSymbol s' r' = getSymbol s r'
  place : ∀ r', getPlace s' r' = getPlace s r'
  comp : ∀ r', (∃ c, getComp s' r' = some c) → ∃ c, getComp s r' = some c
  rest : s' = { s with comps := s'.comps }
  refs : s'.comps.map Prod.fst = s.comps.map Prod.fst

theorem parts_inv {β : Type} (T : Texts β) (hT : OneLine T) {R : Str → Prop} {L : Str → Lines} {s s' : Sch} (hi : Inv T R L s) {r : Str} {kvs : Dict (Option Str)}
    (hr : R r) (hk : ∀ e ∈ kvs, ¬ Attribute e.1) (hl : LegalAll T.norm T.good (L r) (settings kvs)) (h : setParts T.norm s r kvs = some s') :
    Inv T R (fun x => if x = r then linesAfter T.norm (L r) (settings kvs) else L x) s' ∧ Framed s s' r := by
  cases hc : getComp s r with
  | none => simp [setParts, hc] at h
  | some c =>
    obtain ⟨a, e, hok, hH, hg, hrest⟩ := parts_step T hT hi.wf hc (hi.lines r hr ⟨c, hc⟩) kvs hk hl
    rw [h] at e
    obtain rfl := Option.some.inj e
    have hwf : WellFormed (Model.AscSession.put s r (fun c => { c with attrs := a })) := by
      refine Props.AscSession.put_wf hi.wf r _ (fun d hd _ => ?_)
      have : d = c := Props.AscSession.nodup_key hi.wf.refs hd (Props.AscSession.getComp_mem hc).1
      subst this
      exact ⟨rfl, hok⟩
    have hget := Props.AscSession.getComp_put s r
    have hfr : Framed s (Model.AscSession.put s r (fun c => { c with attrs := a })) r := by
      refine ⟨?_, ?_, ?_, ?_, rfl, ?_⟩
      · intro r' k hn
        unfold getAttr
        rw [hget]
        by_cases e : r' = r
        · subst e
          rw [if_pos rfl, hc]
          simp only [Option.map_some, Option.bind_some, textOf]
          rw [hrest k (fun h => hn ⟨rfl, h⟩)]
        · rw [if_neg e]
      · intro r'
        unfold getSymbol
        rw [hget]
        split
        · cases getComp s r' <;> rfl
        · rfl
      · intro r'
        unfold getPlace
        rw [hget]
        split
        · cases getComp s r' <;> rfl
        · rfl
      · rintro r' ⟨d, hd⟩
        rw [hget] at hd
        split at hd
        · cases hx : getComp s r' with
          | none => rw [hx] at hd; cases hd
          | some x => exact ⟨x, rfl⟩
        · exact ⟨d, hd⟩
      · exact Props.AscSession.keys_modify r _ s.comps
    refine ⟨⟨hwf, hi.params, ?_⟩, hfr⟩
    intro r' hr' hex
    by_cases e : r' = r
    · subst e
      simp only [if_true]
      have hc' : getComp (Model.AscSession.put s r' (fun c => { c with attrs := a })) r' = some { c with attrs := a } := by rw [hget, if_pos rfl, hc]; rfl
      exact lines_of_has hwf hc' hH hg
    · simp only [if_neg e]
      have hl' := hi.lines r' hr' (hfr.comp r' hex)
      exact ⟨by rw [hfr.attr _ _ (fun h => e h.1)]; exact hl'.one, by rw [hfr.attr _ _ (fun h => e h.1)]; exact hl'.two, hl'.distinct, hl'.plain, hl'.good⟩

theorem base_inv {β : Type} (T : Texts β) {R : Str → Prop} {L : Str → Lines} {s s' : Sch} (hi : Inv T R L s) {op : Op} (ha : ArgsOk op)
    (hop : ∀ r k v, R r → Holder k → op ≠ .attr r k v) (h : Model.AscSession.step s op = some s') : Inv T R L s' :=
  ⟨Props.AscSession.step_wf hi.wf hi.params ha h, (Props.AscSession.step_param hi.wf hi.params ha h).1,
    fun r hr hex => base_lines hi.wf h hex (fun k v hk => hop r k v hr hk) (hi.lines r hr (getComp_back hi.wf h hex))⟩

/-! #### sessions -/

theorem run_cons {norm : Str → Str} {s s' : Sch} {c : Cmd} {cs : List Cmd} (h : run norm s (c :: cs) = some s') : ∃ t, step norm s c = some t ∧ run norm t cs = some s' := by
  simp only [run] at h
  cases hs : step norm s c with
  | none => rw [hs] at h; cases h
  | some t => rw [hs] at h; exact ⟨t, rfl, h⟩

theorem after_app {β : Type} (read : Str → β) (k : Str) (a b : List (Str × Option Str)) (s : Option β) : valueAfter read k s (a ++ b) = valueAfter read k (valueAfter read k s a) b := by
  induction a generalizing s with
  | nil => rfl
  | cons o a ih => exact ih _

theorem last_cons_or {α : Type} (said : Op → Option α) (op : Op) (ops : List Op) (x : α) : (last said (op :: ops)).getD x = (last said ops).getD ((said op).getD x) := by
  rw [Props.AscSession.last_cons, Props.AscSession.getD_or]

/-- The whole session. -/
theorem run_all {β : Type} (T : Texts β) (hT : OneLine T) (R : Str → Prop) (cs : List Cmd) : ∀ (L : Str → Lines) (s s' : Sch), Inv T R L s → Legal T.norm T.good R L cs →
    run T.norm s cs = some s' →
    WellFormed s' ∧ ParamsOk s' ∧
    (∀ r, R r → (∃ c, getComp s' r = some c) → (∃ c, getComp s r = some c) ∧ ∃ l', HasLines T.good s' r l' ∧
      ∀ k, (l'.pairs.lookup k).map T.read = valueAfter T.read k (((L r).pairs.lookup k).map T.read) (partsSaid r cs)) ∧
    (∀ r k, ¬ (R r ∧ Holder k) → getAttr s' r k = (last (attrSaid r k) (others cs)).getD (getAttr s r k)) ∧
    (∀ r, getSymbol s' r = (last (symbolSaid r) (others cs)).getD (getSymbol s r)) ∧
    (∀ r, getPlace s' r = (others cs).foldl (placeAfter r) (getPlace s r)) := by
  induction cs with
  | nil =>
    intro L s s' hi _ h
    simp only [run, Option.some.injEq] at h
    subst h
    exact ⟨hi.wf, hi.params, fun r hr hex => ⟨hex, L r, hi.lines r hr hex, fun k => rfl⟩, fun _ _ _ => rfl, fun _ => rfl, fun _ => rfl⟩
  | cons c cs ih =>
    intro L s s' hi hl h
    obtain ⟨t, h1, h2⟩ := run_cons h
    cases c with
    | base op =>
      obtain ⟨⟨ha, hop⟩, hl'⟩ := hl
      have h1 : Model.AscSession.step s op = some t := h1
      obtain ⟨w, p, parts, attr, sym, place⟩ := ih L t s' (base_inv T hi ha hop h1) hl' h2
      refine ⟨w, p, ?_, ?_, ?_, ?_⟩
      · intro r hr hex
        obtain ⟨e1, l', e2, e3⟩ := parts r hr hex
        exact ⟨getComp_back hi.wf h1 e1, l', e2, e3⟩
      · intro r k hn
        rw [attr r k hn, Props.AscSession.step_attr hi.wf h1, ← last_cons_or]; rfl
      · intro r
        rw [sym r, Props.AscSession.step_symbol hi.wf h1, ← last_cons_or]; rfl
      · intro r
        rw [place r, Props.AscSession.step_place hi.wf h1]; rfl
    | parts r0 kvs =>
      obtain ⟨⟨hr0, hk, hla⟩, hl'⟩ := hl
      have h1 : setParts T.norm s r0 kvs = some t := h1
      obtain ⟨hi', hf⟩ := parts_inv T hT hi hr0 hk hla h1
      obtain ⟨w, p, parts, attr, sym, place⟩ := ih _ t s' hi' hl' h2
      refine ⟨w, p, ?_, ?_, ?_, ?_⟩
      · intro r hr hex
        obtain ⟨e1, l', e2, e3⟩ := parts r hr hex
        have e0 := hf.comp r e1
        refine ⟨e0, l', e2, fun k => ?_⟩
        rw [e3 k]
        by_cases e : r = r0
        · subst e
          have hb := hi.lines r hr e0
          have := Props.SchComp.setAll_lookup T k (settings kvs) (L r) hb.distinct hb.good hla
          have e4 : partsSaid r (Cmd.parts r kvs :: cs) = settings kvs ++ partsSaid r cs := by simp [partsSaid]
          rw [e4, after_app, ← this, if_pos rfl]; rfl
        · have e4 : partsSaid r (Cmd.parts r0 kvs :: cs) = partsSaid r cs := by simp [partsSaid, Ne.symm e]
          rw [e4, if_neg e]
      · intro r k hn
        rw [attr r k hn, hf.attr r k (fun h => hn ⟨h.1 ▸ hr0, h.2⟩)]; rfl
      · intro r; rw [sym r, hf.symbol]; rfl
      · intro r; rw [place r, hf.place]; rfl

theorem run_params {β : Type} (T : Texts β) (hT : OneLine T) (R : Str → Prop) (cs : List Cmd) : ∀ (L : Str → Lines) (s s' : Sch), Inv T R L s → Legal T.norm T.good R L cs →
    KeepsAll T.norm s cs → run T.norm s cs = some s' → ∀ q, ascGet s' q = ((last (paramSaid q) (others cs)).map some).getD (ascGet s q) := by
  induction cs with
  | nil =>
    intro L s s' _ _ _ h q
    simp only [run, Option.some.injEq] at h
    subst h
    rfl
  | cons c cs ih =>
    intro L s s' hi hl hk h q
    obtain ⟨t, h1, h2⟩ := run_cons h
    cases c with
    | base op =>
      obtain ⟨⟨ha, hop⟩, hl'⟩ := hl
      have h1' : Model.AscSession.step s op = some t := h1
      rw [ih L t s' (base_inv T hi ha hop h1') hl' (hk.2 t h1) h2 q, (Props.AscSession.step_param hi.wf hi.params ha h1').2 (hk.1 op rfl)]
      show _ = ((last (paramSaid q) (op :: others cs)).map some).getD _
      rw [Props.AscSession.last_cons]
      cases last (paramSaid q) (others cs) <;> rfl
    | parts r0 kvs =>
      obtain ⟨⟨hr0, hkn, hla⟩, hl'⟩ := hl
      have h1' : setParts T.norm s r0 kvs = some t := h1
      obtain ⟨hi', hf⟩ := parts_inv T hT hi hr0 hkn hla h1'
      rw [ih _ t s' hi' hl' (hk.2 t h1) h2 q]
      have : ascGet t q = ascGet s q := by rw [hf.rest]; rfl
      rw [this]; rfl

theorem lines_settled {good : Str → Prop} {s : Sch} (hw : WellFormed s) {r : Str} {l : Lines} (h : HasLines good s r l) : HasLines good (settled s) r l :=
  ⟨by rw [Props.AscSession.getAttr_settled hw]; exact h.one, by rw [Props.AscSession.getAttr_settled hw]; exact h.two, h.distinct, h.plain, h.good⟩

theorem getComp_place (s : Sch) (r : Str) : getPlace s r ≠ none ↔ ∃ c, getComp s r = some c := Props.AscSession.getPlace_iff s r

/-- A session with parameters of components: the sheet at the end can be saved, and the saved file shows every parameter of the components in `R` that are still there with the value given
last, or the one it had; what other attributes, symbols and positions were made by the other calls. -/
theorem C108_session {β : Type} (T : Texts β) (hT : ∀ v, T.good v → '\n' ∉ v) (R : Str → Prop) (L : Str → Lines) (cs : List Cmd) (s s' : Sch) (hw : WellFormed s) (hp : ParamsOk s)
    (hL : ∀ r, R r → getPlace s r ≠ none → HasLines T.good s r (L r)) (hl : Legal T.norm T.good R L cs) (h : run T.norm s cs = some s') :
    ∃ txt s'', save s' = some txt ∧ Model.Asc.read txt = some s'' ∧ WellFormed s'' ∧
      (∀ r, R r → getPlace s'' r ≠ none → ∀ k, ¬ Attribute k → (getPart s'' r k).map T.read = valueAfter T.read k ((getPart s r k).map T.read) (partsSaid r cs)) ∧
      (∀ r k, ¬ (R r ∧ Holder k) → getAttr s'' r k = (last (attrSaid r k) (others cs)).getD (getAttr s r k)) ∧
      (∀ r, getSymbol s'' r = (last (symbolSaid r) (others cs)).getD (getSymbol s r)) ∧
      ∀ r, getPlace s'' r = (others cs).foldl (placeAfter r) (getPlace s r) := by
  have hi : Inv T R L s := ⟨hw, hp, fun r hr hex => hL r hr ((getComp_place s r).2 hex)⟩
  obtain ⟨hw', hp', parts, attr, sym, place⟩ := run_all T hT R cs L s s' hi hl h
  obtain ⟨txt, h1, h2⟩ := Lemmas.AscFile.read_save hw'
  refine ⟨txt, _, h1, h2, Props.AscSession.settled_wf hw', ?_, ?_, ?_, ?_⟩
  · intro r hr hpl k hk
    rw [Props.AscSession.getPlace_settled] at hpl
    obtain ⟨⟨c, hc⟩, l', e2, e3⟩ := parts r hr ((getComp_place s' r).1 hpl)
    obtain ⟨c'', hc''⟩ := (getComp_place (settled s') r).1 (by rw [Props.AscSession.getPlace_settled]; exact hpl)
    rw [getPart_eq (Props.AscSession.settled_wf hw') hc'' (lines_settled hw' e2) k hk, e3 k, getPart_eq hw hc (hi.lines r hr ⟨c, hc⟩) k hk]
  · intro r k hn; rw [Props.AscSession.getAttr_settled hw', attr r k hn]
  · intro r; rw [Props.AscSession.getSymbol_settled, sym r]
  · intro r; rw [Props.AscSession.getPlace_settled, place r]

/-- … and the parameters of the sheet. -/
theorem C108_params {β : Type} (T : Texts β) (hT : ∀ v, T.good v → '\n' ∉ v) (R : Str → Prop) (L : Str → Lines) (cs : List Cmd) (s s' : Sch) (hw : WellFormed s) (hp : ParamsOk s)
    (hL : ∀ r, R r → getPlace s r ≠ none → HasLines T.good s r (L r)) (hl : Legal T.norm T.good R L cs) (hk : KeepsAll T.norm s cs) (h : run T.norm s cs = some s') :
    ∃ txt s'', save s' = some txt ∧ Model.Asc.read txt = some s'' ∧ ParamsOk s'' ∧ ∀ q, ascGet s'' q = ((last (paramSaid q) (others cs)).map some).getD (ascGet s q) := by
  have hi : Inv T R L s := ⟨hw, hp, fun r hr hex => hL r hr ((getComp_place s r).2 hex)⟩
  obtain ⟨hw', hp', _⟩ := run_all T hT R cs L s s' hi hl h
  obtain ⟨txt, h1, h2⟩ := Lemmas.AscFile.read_save hw'
  exact ⟨txt, _, h1, h2, hp', fun q => run_params T hT R cs L s s' hi hl hk h q⟩

/-- Legal settings on a component that is there are accepted; they change nothing but this component. -/
theorem C108_accepted {β : Type} (T : Texts β) (hT : ∀ v, T.good v → '\n' ∉ v) (s : Sch) (hw : WellFormed s) (hp : ParamsOk s) (r : Str) (l : Lines) (hr : getPlace s r ≠ none)
    (hL : HasLines T.good s r l) (kvs : Dict (Option Str)) (hk : ∀ e ∈ kvs, ¬ Attribute e.1) (hl : LegalAll T.norm T.good l (settings kvs)) :
    ∃ s', step T.norm s (.parts r kvs) = some s' ∧ s' = { s with comps := s'.comps } ∧ s'.comps.map Prod.fst = s.comps.map Prod.fst ∧
      ∀ r', r' ≠ r → getComp s' r' = getComp s r' := by
  obtain ⟨c, hc⟩ := (getComp_place s r).1 hr
  obtain ⟨a, e, _⟩ := parts_step T hT hw hc hL kvs hk hl
  refine ⟨_, e, rfl, Props.AscSession.keys_modify r _ s.comps, fun r' hn => ?_⟩
  rw [Props.AscSession.getComp_put, if_neg hn]

theorem run_rest {β : Type} (T : Texts β) (hT : OneLine T) (R : Str → Prop) (cs : List Cmd) : ∀ (L : Str → Lines) (s s' : Sch), Inv T R L s → Legal T.norm T.good R L cs →
    run T.norm s cs = some s' → Spec.AscSession.TextsRun (others cs) s.directives s'.directives ∧
      Spec.AscSession.drawing s' = (others cs).foldl Spec.AscSession.drawingAfter (Spec.AscSession.drawing s) ∧
      s'.comps.map Prod.fst = (s.comps.map Prod.fst).filter (fun r => decide (∀ op ∈ others cs, ¬ Spec.AscSession.Removes r op)) := by
  induction cs with
  | nil =>
    intro L s s' _ _ h
    simp only [run, Option.some.injEq] at h
    subst h
    exact ⟨.nil _, rfl, by simp [others]⟩
  | cons c cs ih =>
    intro L s s' hi hl h
    obtain ⟨t, h1, h2⟩ := run_cons h
    cases c with
    | base op =>
      obtain ⟨⟨ha, hop⟩, hl'⟩ := hl
      have h1' : Model.AscSession.step s op = some t := h1
      obtain ⟨a, b, c⟩ := ih L t s' (base_inv T hi ha hop h1') hl' h2
      refine ⟨.cons _ _ _ _ _ (Props.AscSession.step_texts hi.wf hi.params ha h1') a, ?_, ?_⟩
      · rw [b, Props.AscSession.step_drawing hi.wf h1']; rfl
      · rw [c, Props.AscSession.step_refs hi.wf h1', List.filter_filter]
        apply List.filter_congr
        intro r _
        have : others (Cmd.base op :: cs) = op :: others cs := rfl
        rw [this]
        simp only [List.mem_cons, forall_eq_or_imp, ← Bool.decide_and]
        exact decide_eq_decide.2 and_comm
    | parts r0 kvs =>
      obtain ⟨⟨hr0, hkn, hla⟩, hl'⟩ := hl
      have h1' : setParts T.norm s r0 kvs = some t := h1
      obtain ⟨hi', hf⟩ := parts_inv T hT hi hr0 hkn hla h1'
      obtain ⟨a, b, c⟩ := ih _ t s' hi' hl' h2
      have e1 : t.directives = s.directives := by rw [hf.rest]
      have e2 : Spec.AscSession.drawing t = Spec.AscSession.drawing s := by rw [hf.rest]; rfl
      rw [e1] at a
      rw [e2] at b
      rw [hf.refs] at c
      exact ⟨a, b, c⟩

/-- Everything else on the sheet is what the other calls make of it: the texts, the drawing, and which components there are. -/
theorem C108_rest {β : Type} (T : Texts β) (hT : ∀ v, T.good v → '\n' ∉ v) (R : Str → Prop) (L : Str → Lines) (cs : List Cmd) (s s' : Sch) (hw : WellFormed s) (hp : ParamsOk s)
    (hL : ∀ r, R r → getPlace s r ≠ none → HasLines T.good s r (L r)) (hl : Legal T.norm T.good R L cs) (h : run T.norm s cs = some s') :
    ∃ txt s'', save s' = some txt ∧ Model.Asc.read txt = some s'' ∧ Spec.AscSession.TextsRun (others cs) s.directives s''.directives ∧
      Spec.AscSession.drawing s'' = (others cs).foldl Spec.AscSession.drawingAfter (Spec.AscSession.drawing s) ∧
      s''.comps.map Prod.fst = (s.comps.map Prod.fst).filter (fun r => decide (∀ op ∈ others cs, ¬ Spec.AscSession.Removes r op)) := by
  have hi : Inv T R L s := ⟨hw, hp, fun r hr hex => hL r hr ((getComp_place s r).2 hex)⟩
  obtain ⟨hw', hp', _⟩ := run_all T hT R cs L s s' hi hl h
  obtain ⟨a, b, c⟩ := run_rest T hT R cs L s s' hi hl h
  obtain ⟨txt, h1, h2⟩ := Lemmas.AscFile.read_save hw'
  refine ⟨txt, _, h1, h2, a, b, ?_⟩
  rw [← c]; simp [settled, Function.comp_def]

/-! #### an example -/

/-- Integers with leading zeros are written again without them. -/
def exTexts : Texts Str where
  norm v := if v = "007".toList then "7".toList else v
  read v := if v = "007".toList then "7".toList else v
  good v := Spec.ParamLine.Value v ∧ '\n' ∉ v
  value _ h := h.1
  again v h := by
    split
    · exact ⟨Or.inr (Or.inr ⟨"7".toList, [], rfl, by decide, fun c hc => Or.inl (by revert c; decide +kernel), by simp⟩), by decide⟩
    · exact h
  same v _ := by
    by_cases h : v = "007".toList
    · rw [if_pos h]; rfl
    · rw [if_neg h, if_neg h]

/-- Parameters are set, one is removed after the file was saved and opened, the resistor is turned and gets a new value. -/
def exCmds : List Cmd :=
  [.parts "R1".toList [("tol".toList, some " 007 ".toList), ("pwr".toList, some "1u".toList)], .base .reopen, .base (.value "R1".toList "2k".toList),
   .parts "R1".toList [("pwr".toList, none), ("tc".toList, some "3".toList)], .base (.move "R1".toList 5 6 90)]

theorem ex_lines (r : Str) (hr : r = "R1".toList) : HasLines exTexts.good Props.AscSession.exPar r ⟨none, none⟩ := by
  subst hr
  exact ⟨.inl ⟨by decide +kernel, rfl⟩, .inl ⟨by decide +kernel, rfl⟩, by decide, by simp [names, Lines.pairs], by simp [Lines.pairs]⟩

theorem ex_value (v n u : Str) (e : v = n ++ u) (h0 : n ≠ []) (h : (n.all Char.isDigit && u.all Char.isAlpha) = true) (hn : '\n' ∉ v) : exTexts.good v := by
  subst e
  simp only [Bool.and_eq_true, List.all_eq_true] at h
  exact ⟨Or.inr (Or.inr ⟨n, u, rfl, h0, fun c hc => Or.inl (h.1 c hc), fun c hc => Or.inl (h.2 c hc)⟩), hn⟩

theorem ex_legal : Legal exTexts.norm exTexts.good (· = "R1".toList) (fun _ => ⟨none, none⟩) exCmds := by
  have plain : ∀ k : Str, k ∈ ["tol".toList, "pwr".toList, "tc".toList] → ¬ Attribute k := by unfold Attribute; decide +kernel
  refine ⟨⟨rfl, ?_, ?_⟩, ⟨trivial, fun _ _ _ _ _ => by simp⟩, ⟨⟨by decide, by decide, by decide, by decide⟩, fun _ _ _ _ _ => by simp⟩, ⟨rfl, ?_, ?_⟩, ⟨?_, fun _ _ _ _ _ => by simp⟩, trivial⟩
  · intro e he
    simp only [List.mem_cons, List.not_mem_nil, or_false] at he
    rcases he with rfl | rfl <;> exact plain _ (by simp)
  · refine ⟨⟨Props.SchComp.sample_name _ (by decide +kernel), ex_value _ "007".toList [] (by decide +kernel) (by decide) (by decide) (by decide +kernel)⟩,
      ⟨Props.SchComp.sample_name _ (by decide +kernel), ex_value _ "1".toList "u".toList (by decide +kernel) (by decide) (by decide) (by decide +kernel)⟩, trivial⟩
  · intro e he
    simp only [List.mem_cons, List.not_mem_nil, or_false] at he
    rcases he with rfl | rfl <;> exact plain _ (by simp)
  · refine ⟨⟨by decide +kernel, ?_⟩, ⟨Props.SchComp.sample_name _ (by decide +kernel), ex_value _ "3".toList [] (by decide +kernel) (by decide) (by decide) (by decide +kernel)⟩, trivial⟩
    intro ps e hk
    have h1 : (linesAfter exTexts.norm (⟨none, none⟩ : Lines) (settings [("tol".toList, some " 007 ".toList), ("pwr".toList, some "1u".toList)])).one.map List.length = some 2 := by decide +kernel
    have h2 : (linesAfter exTexts.norm (⟨none, none⟩ : Lines) (settings [("tol".toList, some " 007 ".toList), ("pwr".toList, some "1u".toList)])).two = none := by decide +kernel
    simp only [if_true] at e
    rcases e with e | e
    · rw [e] at h1
      simp only [Option.map_some, Option.some.injEq] at h1
      omega
    · rw [e] at h2; cases h2
  · show Spec.AscFile.Orientation 90; unfold Spec.AscFile.Orientation; decide

theorem ex_run : ((run exTexts.norm Props.AscSession.exPar exCmds).bind (fun s => getAttr s "R1".toList "SpiceLine".toList)) = some "tol=7 tc=3".toList := by decide +kernel

/-- The theorem applies: what the saved file shows of the resistor. -/
theorem ex_file (s' : Sch) (h : run exTexts.norm Props.AscSession.exPar exCmds = some s') : ∃ txt s'', save s' = some txt ∧ Model.Asc.read txt = some s'' ∧
    (getPart s'' "R1".toList "tol".toList).map exTexts.read = some "7".toList ∧ (getPart s'' "R1".toList "pwr".toList).map exTexts.read = none ∧
    (getPart s'' "R1".toList "tc".toList).map exTexts.read = some "3".toList ∧ getAttr s'' "R1".toList "Value".toList = some "2k".toList ∧ getPlace s'' "R1".toList = some (5, 6, 90) := by
  obtain ⟨txt, s'', h1, h2, _, h3, h4, _, h6⟩ := C108_session exTexts (fun v h => h.2) (· = "R1".toList) (fun _ => ⟨none, none⟩) exCmds Props.AscSession.exPar s' Props.AscSession.exPar_ok
    Props.AscSession.exPar_params (fun r hr _ => ex_lines r hr) ex_legal h
  have hp : getPlace s'' "R1".toList = some (5, 6, 90) := by rw [h6]; decide +kernel
  have plain : ∀ k : Str, k ∈ ["tol".toList, "pwr".toList, "tc".toList] → ¬ Attribute k := by unfold Attribute; decide +kernel
  have h3 := h3 "R1".toList rfl (by rw [hp]; simp)
  refine ⟨txt, s'', h1, h2, ?_, ?_, ?_, ?_, hp⟩
  · rw [h3 _ (plain _ (by simp))]; decide +kernel
  · rw [h3 _ (plain _ (by simp))]; decide +kernel
  · rw [h3 _ (plain _ (by simp))]; decide +kernel
  · rw [h4 _ _ (by rintro ⟨_, e | e⟩ <;> exact absurd e (by decide))]; decide +kernel

end Props.AscParts
