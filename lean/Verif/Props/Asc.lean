import Verif.Lemmas.AscLoad
import Verif.Spec.AscInstr
import Mathlib.Tactic.ByContra
/-! C58 and C46: LTspice schematic files. -/
namespace Props.Asc
open Model.Asc Model.PyStr Lemmas.PyStr Lemmas.Asc Lemmas.AscLines Lemmas.AscFile Lemmas.AscLoad
open Spec.AscFile hiding Str

/-! ### C58 saving and loading -/

/-- Saving a well formed schematic succeeds, and loading the file gives the schematic back (attributes in file order). Missing for
the full property: ports, which are not saved (`C58_ports_lost`). -/
theorem C58_round_trip (s : Sch) (h : WellFormed s) : ∃ txt, save s = some txt ∧ Model.Asc.read txt = some (settled s) :=
  read_save h

/-- Any file that can be loaded, with named components: saving what was loaded succeeds and loading that file gives the same
schematic again, except ports. -/
theorem C58_load_save_load (txt : Str) (s : Sch) (h : Model.Asc.read txt = some s) (hn : Named s) :
    ∃ txt', save s = some txt' ∧ Model.Asc.read txt' = some (settled s) :=
  read_save (loaded_wellFormed (read_loaded h) hn)

/-- A file that was saved is stable: loading it and saving again gives the same text. -/
theorem C58_stable (s : Sch) (h : WellFormed s) (txt : Str) (hs : save s = some txt) :
    ∃ s', Model.Asc.read txt = some s' ∧ save s' = some txt := by
  obtain ⟨txt', h1, h2⟩ := read_save h
  rw [hs] at h1
  obtain rfl := Option.some.inj h1
  exact ⟨_, h2, by rw [save_settled, hs]⟩

/-- The attributes of each component survive with their names and values, only their order may change. -/
theorem C58_settled_same (s : Sch) :
    (settled s).version = s.version ∧ (settled s).sheet = s.sheet ∧ (settled s).wires = s.wires ∧ (settled s).labels = s.labels ∧
    (settled s).directives = s.directives ∧ (settled s).lines = s.lines ∧ (settled s).shapes = s.shapes ∧
    (settled s).comps.length = s.comps.length ∧
    ∀ i (hi : i < s.comps.length) (hi' : i < (settled s).comps.length),
      (settled s).comps[i].1 = s.comps[i].1 ∧
      { (settled s).comps[i].2 with attrs := [] } = { s.comps[i].2 with attrs := [] } ∧
      (settled s).comps[i].2.attrs.Perm s.comps[i].2.attrs := by
  refine ⟨rfl, rfl, rfl, rfl, rfl, rfl, rfl, by simp [settled], ?_⟩
  intro i hi hi'
  have : (settled s).comps[i] = (s.comps[i].1, sortAttrs s.comps[i].2) := by
    show (s.comps.map (fun p => (p.1, sortAttrs p.2)))[i]'(by simpa using hi) = _
    rw [List.getElem_map]
  rw [this]
  exact ⟨rfl, rfl, List.filter_append_perm isWindow _⟩

/-- When the windows come before the other attributes, as in every file LTspice writes, nothing but the ports changes. -/
theorem C58_settled_eq (s : Sch) (h : ∀ p ∈ s.comps, ∃ w t : List (Str × AttrVal), p.2.attrs = w ++ t ∧
    (∀ a ∈ w, isWindow a = true) ∧ (∀ a ∈ t, isWindow a = false)) : settled s = { s with ports := [] } := by
  unfold settled
  have : s.comps.map (fun p => (p.1, sortAttrs p.2)) = s.comps := by
    conv_rhs => rw [← List.map_id s.comps]
    apply List.map_congr_left
    intro p hp
    obtain ⟨w, t, e, hw, ht⟩ := h p hp
    obtain ⟨k, c⟩ := p
    obtain ⟨a1, a2, a3, a4, a5, attrs⟩ := c
    simp only at e
    subst e
    simp only [sortAttrs, id]
    congr 2
    rw [List.filter_append, List.filter_append, List.filter_eq_self.2 hw,
      List.filter_eq_nil_iff.2 (fun a ha => by simp [ht a ha]), List.filter_eq_nil_iff.2 (fun a ha => by simp [hw a ha]),
      List.filter_eq_self.2 (fun a ha => by simp [ht a ha])]
    simp
  rw [this]

/-! A schematic with everything in it. -/

def exSch : Sch := {
  version := "4.1".toList, sheet := "1 880 680".toList,
  wires := [{ x1 := -16, y1 := 0, x2 := 32, y2 := 0 }],
  labels := [{ x := 0, y := 0, text := "in".toList, type := .label }],
  comps := [("R1".toList, { symbol := "my res".toList, x := 16, y := -32, rot := 450, reference := "R1".toList, attrs := [("_WINDOW 0".toList, .text { x := 0, y := 56, text := "0".toList, size := 2, type := .attribute, ver := .bottom, hor := .center, angle := 90 }),
              ("Value".toList, .str "10 k".toList), ("Prefix".toList, .str "R".toList)] })],
  directives := [{ x := 1, y := 2, text := ".tran 1m".toList, size := 2, type := .directive },
                 { x := 1, y := 3, text := "a note".toList, size := 1, type := .comment, hor := .center, ver := .top }],
  lines := [{ x1 := 0, y1 := 1, x2 := 2, y2 := 3, pattern := "2".toList }],
  shapes := [{ name := "ARC".toList, points := [(1, 2), (3, 4), (5, 6), (7, 8)] },
             { name := "CIRCLE".toList, points := [(1, 2), (3, 4)], pattern := "1".toList }] }

theorem exSch_ok : WellFormed exSch := by
  constructor
  · simp [exSch]
  · exact ⟨by decide, by decide, by decide⟩
  · decide
  · intro t ht
    obtain rfl := List.mem_singleton.1 ht
    exact ⟨⟨by decide, by decide⟩, rfl⟩
  · intro p hp
    obtain rfl := List.mem_singleton.1 hp
    refine ⟨rfl, ⟨⟨["my".toList, "res".toList], ?_, by decide⟩, by simp [Orientation], ⟨by decide, by decide, by decide, by decide⟩, ?_, by decide⟩⟩
    · intro w hw
      simp only [List.mem_cons, List.not_mem_nil, or_false] at hw
      rcases hw with rfl | rfl <;> exact ⟨by decide, by decide⟩
    · intro a ha
      simp only [List.mem_cons, List.not_mem_nil, or_false] at ha
      rcases ha with rfl | rfl | rfl
      · exact Or.inl ⟨"0".toList, _, rfl, ⟨by decide, by decide⟩, rfl, rfl, ⟨by decide, by decide⟩, Or.inr rfl⟩
      · exact Or.inr ⟨_, _, rfl, ⟨by decide, by decide⟩, by decide, by decide, by decide, ⟨by decide, by decide, by decide⟩, by decide⟩
      · exact Or.inr ⟨_, _, rfl, ⟨by decide, by decide⟩, by decide, by decide, by decide, ⟨by decide, by decide, by decide⟩, by decide⟩
  · decide
  · intro t ht
    simp only [exSch, List.mem_cons, List.not_mem_nil, or_false] at ht
    rcases ht with rfl | rfl
    · exact ⟨Or.inl rfl, ⟨by decide, by decide⟩, rfl, by decide, ⟨by decide, by decide, by decide⟩⟩
    · exact ⟨Or.inr rfl, ⟨by decide, by decide⟩, rfl, by decide, ⟨by decide, by decide, by decide⟩⟩
  · intro l hl
    obtain rfl := List.mem_singleton.1 hl
    exact Or.inr ⟨by decide, by decide⟩
  · intro t ht
    simp only [exSch, List.mem_cons, List.not_mem_nil, or_false] at ht
    rcases ht with rfl | rfl
    · exact ⟨Or.inl rfl, Or.inr (Or.inr ⟨rfl, rfl⟩)⟩
    · exact ⟨Or.inr ⟨by decide, by decide⟩, Or.inr (Or.inl ⟨rfl, rfl⟩)⟩

example : ∃ txt, save exSch = some txt ∧ Model.Asc.read txt = some (settled exSch) := C58_round_trip exSch exSch_ok
example : Named exSch := by
  intro p hp
  obtain rfl := List.mem_singleton.1 hp
  refine ⟨by decide, ?_⟩
  intro a ha
  simp only [List.mem_cons, List.not_mem_nil, or_false] at ha
  rcases ha with rfl | rfl | rfl <;> decide
example : save exSch = some ("Version 4.1\nSHEET 1 880 680\nWIRE -16 0 32 0\nFLAG 0 0 in\nSYMBOL my res 16 -32 M90\nWINDOW 0 0 56 VBottom 2\nSYMATTR InstName R1\nSYMATTR Value 10 k\nSYMATTR Prefix R\nTEXT 1 2 Left 2 !.tran 1m\nTEXT 1 3 Top 1 ;a note\nLINE Normal 0 1 2 3 2\nARC Normal 1 2 3 4 5 6 7 8\nCIRCLE Normal 1 2 3 4 1\n").toList := by
  decide +kernel

/-! What the format loses. -/

/-- Ports are read but not saved: loading a file with a port and saving it drops the IOPIN line. -/
theorem C58_ports_lost : ∃ s, Model.Asc.read "Version 4\nSHEET 1 0 0\nFLAG 0 0 in\nIOPIN 0 0 In\n".toList = some s ∧ s.ports.length = 1 ∧
    save s = some "Version 4\nSHEET 1 0 0\nFLAG 0 0 in\n".toList :=
  ⟨{ labels := [{ x := 0, y := 0, text := "in".toList, type := .label }],
     ports := [{ text := { x := 0, y := 0, text := "in".toList, type := .label }, direction := "In".toList }] },
   by decide +kernel, rfl, by decide +kernel⟩

/-- A vertical text becomes horizontal when the file is loaded. -/
theorem C58_vertical_text_lost : ∃ s, Model.Asc.read "TEXT 0 0 VLeft 2 !.op\n".toList = some s ∧
    save s = some "Version 4\nSHEET 1 0 0\nTEXT 0 0 Left 2 !.op\n".toList :=
  ⟨{ directives := [{ x := 0, y := 0, text := ".op".toList, size := 2, type := .directive }] }, by decide +kernel, by decide +kernel⟩

/-- A text whose size is separated by two blanks is dropped without a message. -/
theorem C58_text_dropped : Model.Asc.read "TEXT 0 0 Left  2 !.op\n".toList = some {} := by decide +kernel

/-- Of two symbols with the same name only the last is kept, at the place of the first. -/
theorem C58_same_name : ∃ s, Model.Asc.read "SYMBOL a 0 0 R0\nSYMATTR InstName R1\nSYMBOL b 0 0 R0\nSYMATTR InstName R1\n".toList = some s ∧
    s.comps.map (fun p => (p.1, p.2.symbol)) = [("R1".toList, "b".toList)] :=
  ⟨{ comps := [("R1".toList, { symbol := "b".toList, x := 0, y := 0, rot := 0, reference := "R1".toList })] },
   by decide +kernel, by decide +kernel⟩

/-- A symbol without a name is loaded, but the saved file cannot be loaded any more. -/
theorem C58_nameless : ∃ s txt, Model.Asc.read "SYMBOL a 0 0 R0\n".toList = some s ∧ save s = some txt ∧ Model.Asc.read txt = none :=
  ⟨{ comps := [([], { symbol := "a".toList, x := 0, y := 0, rot := 0 })] },
   "Version 4\nSHEET 1 0 0\nSYMBOL a 0 0 R0\nSYMATTR InstName \n".toList, by decide +kernel, by decide +kernel, by decide +kernel⟩

/-- The same with an attribute whose value was set to the empty text. -/
theorem C58_empty_value : ∃ txt, save { comps := [("R1".toList, { symbol := "a".toList, x := 0, y := 0, rot := 0, reference := "R1".toList, attrs := [("Value".toList, .str [])] })] } = some txt ∧ Model.Asc.read txt = none :=
  ⟨"Version 4\nSHEET 1 0 0\nSYMBOL a 0 0 R0\nSYMATTR InstName R1\nSYMATTR Value \n".toList, by decide +kernel, by decide +kernel⟩

/-- A rotation that the format does not know cannot be saved. -/
theorem C58_rotation (s : Sch) (p : Str × Comp) (hp : p ∈ s.comps) (hr : ¬ Orientation p.2.rot) : save s = none := by
  have hn : rotName p.2.rot = none := by
    unfold Orientation at hr
    simp only [List.mem_cons, List.not_mem_nil, or_false, not_or] at hr
    obtain ⟨h1, h2, h3, h4, h5, h6, h7, h8⟩ := hr
    have e : ∀ (n : Nat) (v : Str) (l : List (Nat × Str)), p.2.rot ≠ n → ((n, v) :: l).lookup p.2.rot = l.lookup p.2.rot := by
      intro n v l hne
      rw [List.lookup_cons, show (p.2.rot == n) = false by simpa using hne]
    unfold rotName rotations
    simp only [List.map_cons, List.map_nil]
    rw [e _ _ _ h1, e _ _ _ h2, e _ _ _ h3, e _ _ _ h4, e _ _ _ h5, e _ _ _ h6, e _ _ _ h7, e _ _ _ h8]
    rfl
  have hc : none ∈ s.comps.map (fun c => compLines c.2) := List.mem_map.2 ⟨p, hp, by rw [compLines, hn]; rfl⟩
  have key : ∀ (l : List (Option (List Str))), none ∈ l → allSome l = none := by
    intro l
    induction l with
    | nil => intro h; cases h
    | cons x l ih =>
      intro h
      cases x with
      | none => rfl
      | some a =>
        rcases List.mem_cons.1 h with h | h
        · cases h
        · rw [allSome, ih h]; rfl
  unfold save write
  rw [key _ hc]
  rfl

example : save { comps := [("R1".toList, { symbol := "a".toList, x := 0, y := 0, rot := 45, reference := "R1".toList })] } = none :=
  C58_rotation _ _ (List.mem_singleton.2 rfl) (by simp [Orientation])

/-! ### C46 alignment words and rotations -/

/-- A text that can be described in the format keeps its alignment, visibility and direction when it is written and read; the rest of
the text stays. -/
theorem C46_write_read (t : Text) (h : Aligned t) (ha : t.angle = 0 ∨ t.angle = 90) (b : Text)
    (hb : b = { t with hor := .left, ver := .center, angle := 0, visible := true }) : alignSet b (alignGet t) = some t :=
  alignSet_get t h ha b hb

open Spec.AscInstr (alignments) in
/-- Every alignment word, in any letters and with or without a V, is understood as the table says, and writing the text again gives
the word. -/
theorem C46_read_write (w : Str) (a : Str × Hor × Ver × Bool) (ha : a ∈ alignments) (vertical : Bool)
    (hw : lower w = lower (if vertical then 'V' :: a.1 else a.1)) (b : Text) (hb : b.visible = true) :
    ∃ t, alignSet b w = some t ∧
      t = { b with hor := a.2.1, ver := a.2.2.1, visible := a.2.2.2, angle := if vertical then 90 else 0 } ∧
      alignGet t = (if vertical then 'V' :: a.1 else a.1) := by
  obtain ⟨x, y, tx, sz, ty, ho, ve, an, vi⟩ := b
  simp only at hb
  subst hb
  have key : ∀ u : Str, lower w = u → alignSet ⟨x, y, tx, sz, ty, ho, ve, an, true⟩ w =
      (if u = "left".toList ∨ u = "vleft".toList then some { (⟨x, y, tx, sz, ty, .center, .center, an, true⟩ : Text) with hor := .left }
      else if u = "center".toList ∨ u = "vcenter".toList then some (⟨x, y, tx, sz, ty, .center, .center, an, true⟩ : Text)
      else if u = "right".toList ∨ u = "vright".toList then some { (⟨x, y, tx, sz, ty, .center, .center, an, true⟩ : Text) with hor := .right }
      else if u = "top".toList ∨ u = "vtop".toList then some { (⟨x, y, tx, sz, ty, .center, .center, an, true⟩ : Text) with ver := .top }
      else if u = "bottom".toList ∨ u = "vbottom".toList then some { (⟨x, y, tx, sz, ty, .center, .center, an, true⟩ : Text) with ver := .bottom }
      else if u = "invisible".toList ∨ u = "vinvisible".toList then some { (⟨x, y, tx, sz, ty, .center, .center, an, true⟩ : Text) with visible := false }
      else none).map (fun t => { t with angle := if u.head? = some 'v' then 90 else 0 }) := by
    intro u hu
    subst hu
    rfl
  simp only [alignments, List.mem_cons, List.not_mem_nil, or_false] at ha
  cases vertical <;> rcases ha with rfl | rfl | rfl | rfl | rfl | rfl <;>
    (rw [key _ hw]; exact ⟨_, rfl, rfl, rfl⟩)

open Spec.AscInstr (alignments) in
/-- Any other word is refused. -/
theorem C46_other_words (w : Str) (h : ∀ a ∈ alignments, lower w ≠ lower a.1 ∧ lower w ≠ 'v' :: lower a.1) (b : Text) :
    alignSet b w = none := by
  have key : ∀ (a : Str × Hor × Ver × Bool) (u v : Str), a ∈ alignments → u = lower a.1 → v = 'v' :: lower a.1 → ¬ (lower w = u ∨ lower w = v) := by
    intro a u v ha hu hv
    subst hu hv
    have := h a ha
    rintro (h | h)
    · exact this.1 h
    · exact this.2 h
  unfold alignSet
  simp only
  rw [if_neg (key ("Left".toList, .left, .center, true) _ _ (by simp [alignments]) (by decide) (by decide)),
    if_neg (key ("Center".toList, .center, .center, true) _ _ (by simp [alignments]) (by decide) (by decide)),
    if_neg (key ("Right".toList, .right, .center, true) _ _ (by simp [alignments]) (by decide) (by decide)),
    if_neg (key ("Top".toList, .center, .top, true) _ _ (by simp [alignments]) (by decide) (by decide)),
    if_neg (key ("Bottom".toList, .center, .bottom, true) _ _ (by simp [alignments]) (by decide) (by decide)),
    if_neg (key ("Invisible".toList, .center, .center, false) _ _ (by simp [alignments]) (by decide) (by decide))]
  rfl

/-- The names of rotations and the rotations are in one-to-one correspondence. -/
theorem C46_rotations (n : Str) (r : Nat) : rotOf n = some r ↔ rotName r = some n := by
  constructor
  · intro h
    obtain ⟨m, h1, h2, _⟩ := rot_inverse (rotOf_ok h)
    have : ∀ (a b : Str), rotOf a = some r → rotOf b = some r → a = b := by
      intro a b ha hb
      have mem : ∀ x : Str, rotOf x = some r → (x, r) ∈ rotations := by
        intro x hx
        unfold rotOf at hx
        have : ∀ (l : List (Str × Nat)), l.lookup x = some r → (x, r) ∈ l := by
          intro l
          induction l with
          | nil => intro h; cases h
          | cons p l ih =>
            obtain ⟨k, v⟩ := p
            intro h
            rw [List.lookup_cons] at h
            by_cases hk : x == k
            · rw [hk] at h
              simp only at h
              obtain rfl := Option.some.inj h
              rw [eq_of_beq hk]; exact List.mem_cons_self
            · simp only [Bool.not_eq_true] at hk
              rw [hk] at h
              exact List.mem_cons_of_mem _ (ih h)
        exact this _ hx
      have inj : ∀ p ∈ rotations, ∀ q ∈ rotations, p.2 = q.2 → p.1 = q.1 := by decide
      exact inj _ (mem a ha) _ (mem b hb) rfl
    rw [this n m h h2, h1]
  · intro h
    have hr : Orientation r := by
      by_contra hr
      have := C58_rotation { comps := [([], { symbol := [], x := 0, y := 0, rot := r })] } _ (List.mem_singleton.2 rfl) hr
      unfold save write at this
      simp only [List.map_cons, List.map_nil, compLines, h, allSome, Option.map_some] at this
      cases this
    obtain ⟨m, h1, h2, _⟩ := rot_inverse hr
    rw [h1] at h
    obtain rfl := Option.some.inj h
    exact h2

example : alignSet { x := 0, y := 0, text := [] } "vBoTTom".toList = some { x := 0, y := 0, text := [], hor := .center, ver := .bottom, angle := 90 } := by
  decide
example : Aligned { x := 0, y := 0, text := [], hor := .right, angle := 90 } := ⟨by decide, by decide⟩
example : rotOf "M270".toList = some 630 := by decide

/-- A text in a corner cannot be written: it is centred horizontally when read back. -/
theorem C46_corner : alignSet { x := 0, y := 0, text := [] } (alignGet { x := 0, y := 0, text := [], hor := .left, ver := .top }) =
    some { x := 0, y := 0, text := [], hor := .center, ver := .top } := by decide

end Props.Asc
