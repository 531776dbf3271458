import Verif.Spec.QNets
import Verif.Lemmas.PyStr

/-! C68: the nets of the pins of QSPICE schematics. -/
namespace Props.QNets
open Model.PyStr Model.QNets Spec.QNets

/-! ### Names -/

theorem show_inj (a b : Nat) (h : showNat a = showNat b) : a = b := by
  have h1 := Lemmas.PyStr.parse_show a [] (by simp)
  have h2 := Lemmas.PyStr.parse_show b [] (by simp)
  rw [h] at h1
  rw [List.nil_append] at h1 h2
  rw [h1] at h2; simpa using h2

theorem digits_parse (d : Str) (hne : d ≠ []) (hd : ∀ c ∈ d, c.isDigit = true) : parseInt d = some (Nat.ofDigitChars 10 d 0 : Int) := by
  have hs : strip d = d := by
    unfold strip lstrip rstrip
    have hsp : ∀ c ∈ d, isSpace c = false := fun c hc => (Lemmas.PyStr.digit_props c (hd c hc)).1
    rw [Lemmas.PyStr.dropWhile_none _ _ hsp, Lemmas.PyStr.dropWhile_none _ _ (fun c hc => hsp c (List.mem_reverse.1 hc)), List.reverse_reverse]
  unfold parseInt
  simp only [hs]
  have hall : d.all Char.isDigit = true := List.all_eq_true.2 hd
  cases d with
  | nil => exact absurd rfl hne
  | cons c r =>
    have h1 : c ≠ '-' := by rintro rfl; have := hd '-' (by simp); revert this; decide
    have h2 : c ≠ '+' := by rintro rfl; have := hd '+' (by simp); revert this; decide
    split
    · rename_i e; simp only [List.cons.injEq] at e; exact absurd e.1 h1
    · rename_i e; simp only [List.cons.injEq] at e; exact absurd e.1 h2
    · rw [if_pos ⟨hne, hall⟩]

theorem twoDigits_parse (n : Nat) : parseInt (twoDigits n) = some (n : Int) := by
  have hb : parseInt (showNat n) = some (n : Int) := Lemmas.PyStr.parseInt_show (n : Int)
  have hd := Lemmas.PyStr.showNat_digits n
  have hne := Lemmas.PyStr.showNat_ne n
  have h1 := digits_parse _ hne hd
  unfold twoDigits
  by_cases h : n < 10
  · rw [if_pos h, digits_parse _ (by simp) (by
      intro c hc
      rcases List.mem_cons.1 hc with rfl | m
      · decide
      · exact hd c m)]
    rw [← hb, h1]
    rfl
  · rw [if_neg h, hb]

theorem twoDigits_inj (a b : Nat) (h : twoDigits a = twoDigits b) : a = b := by
  have h1 := twoDigits_parse a
  rw [h, twoDigits_parse b] at h1
  simp only [Option.some.injEq] at h1
  omega

theorem foldl_higher (ws : List (Pos × Pos × Str)) : ∀ h : Nat, h ≤ ws.foldl higher h ∧
    ∀ w ∈ ws, ∀ k : Int, number w.2.2 = some k → k ≤ ws.foldl higher h := by
  induction ws with
  | nil => intro h; exact ⟨Nat.le_refl _, by simp⟩
  | cons w ws ih =>
    intro h
    obtain ⟨i1, i2⟩ := ih (higher h w)
    have hh : h ≤ higher h w ∧ ∀ k : Int, number w.2.2 = some k → k ≤ higher h w := by
      unfold higher
      cases hn : number w.2.2 with
      | none => exact ⟨Nat.le_refl _, by simp⟩
      | some k =>
        simp only
        by_cases hk : (h : Int) < k
        · rw [if_pos hk]
          refine ⟨by omega, fun k' e => ?_⟩
          simp only [Option.some.injEq] at e; subst e; omega
        · rw [if_neg hk]
          refine ⟨Nat.le_refl _, fun k' e => ?_⟩
          simp only [Option.some.injEq] at e; subst e; omega
    refine ⟨Nat.le_trans hh.1 i1, fun v hv k hk => ?_⟩
    simp only [List.foldl_cons]
    rcases List.mem_cons.1 hv with rfl | m
    · have := hh.2 k hk; omega
    · exact i2 v m k hk

/-! ### The table of floating places -/

/-- The net of a pin, given the final table. -/
def expected (s : Sheet) (floating : List (Pos × Str)) (ref : Str) (p : Pin) : Str :=
  if behavioural ref && p.mark then "¥".toList
  else match netAt s p.pos with
    | some n => n
    | none => (floating.lookup p.pos).getD []

/-- A name made up for a floating place. -/
def Made (base : Nat) (st : St) (n : Str) : Prop :=
  (∃ k, base < k ∧ k ≤ st.top ∧ n = 'N' :: twoDigits k) ∨ (∃ k, k < st.beh ∧ n = '¥' :: showNat k)

structure Inv (s : Sheet) (base : Nat) (st : St) : Prop where
  low : base ≤ st.top
  made : ∀ e ∈ st.floating, Made base st e.2
  names : (st.floating.map Prod.snd).Nodup
  places : ∀ e ∈ st.floating, netAt s e.1 = none

theorem lookup_append (l : List (Pos × Str)) (e : Pos × Str) (p : Pos) :
    (l ++ [e]).lookup p = (l.lookup p).or (if p = e.1 then some e.2 else none) := by
  induction l with
  | nil =>
    simp only [List.nil_append, List.lookup]
    by_cases h : p = e.1
    · simp [h]
    · have : (p == e.1) = false := by simpa using h
      simp [h, this]
  | cons a l ih =>
    simp only [List.cons_append, List.lookup]
    by_cases h : p = a.1
    · have : (p == a.1) = true := by simpa using h
      simp [this]
    · have : (p == a.1) = false := by simpa using h
      simp [this, ih]

theorem lookup_some_mem (l : List (Pos × Str)) (p : Pos) (n : Str) (h : l.lookup p = some n) : (p, n) ∈ l := by
  induction l with
  | nil => simp at h
  | cons a l ih =>
    simp only [List.lookup] at h
    by_cases hp : p = a.1
    · have : (p == a.1) = true := by simpa using hp
      rw [this] at h
      simp only [Option.some.injEq] at h
      rw [hp, ← h]; simp
    · have : (p == a.1) = false := by simpa using hp
      rw [this] at h
      exact List.mem_cons_of_mem _ (ih h)

/-- What one pin does to the table: nothing that is there changes. -/
def Grows (a b : List (Pos × Str)) : Prop := ∀ p n, a.lookup p = some n → b.lookup p = some n

/-- A pin is settled by a table: it needs no name, or has one. -/
def Settled (s : Sheet) (fl : List (Pos × Str)) (ref : Str) (p : Pin) : Prop :=
  (behavioural ref && p.mark) = true ∨ (netAt s p.pos).isSome = true ∨ (fl.lookup p.pos).isSome = true

theorem expected_grows (s : Sheet) (a b : List (Pos × Str)) (h : Grows a b) (ref : Str) (p : Pin) (hs : Settled s a ref p) :
    expected s b ref p = expected s a ref p ∧ Settled s b ref p := by
  unfold expected Settled at *
  by_cases hm : (behavioural ref && p.mark) = true
  · rw [if_pos hm, if_pos hm]; exact ⟨rfl, Or.inl hm⟩
  · rw [if_neg hm, if_neg hm]
    cases hn : netAt s p.pos with
    | some n => exact ⟨rfl, Or.inr (Or.inl rfl)⟩
    | none =>
      rcases hs with h1 | h1 | h1
      · exact absurd h1 hm
      · rw [hn] at h1; simp at h1
      · obtain ⟨n, h2⟩ := Option.isSome_iff_exists.1 h1
        rw [h p.pos n h2, h2]
        exact ⟨rfl, Or.inr (Or.inr rfl)⟩

theorem pinNet_step (s : Sheet) (base : Nat) (ref : Str) (st : St) (p : Pin) (h : Inv s base st) :
    Inv s base (pinNet s ref st p).1 ∧ Grows st.floating (pinNet s ref st p).1.floating ∧
    (pinNet s ref st p).2 = expected s (pinNet s ref st p).1.floating ref p ∧ Settled s (pinNet s ref st p).1.floating ref p := by
  unfold pinNet expected Settled
  by_cases hm : (behavioural ref && p.mark) = true
  · rw [if_pos hm, if_pos hm]; exact ⟨h, fun _ _ e => e, rfl, Or.inl hm⟩
  · rw [if_neg hm, if_neg hm]
    cases hn : netAt s p.pos with
    | some n => exact ⟨h, fun _ _ e => e, rfl, Or.inr (Or.inl rfl)⟩
    | none =>
      simp only
      cases hl : st.floating.lookup p.pos with
      | some n => simp only [hl]; exact ⟨h, fun _ _ e => e, rfl, Or.inr (Or.inr rfl)⟩
      | none =>
        have grow : ∀ n : Str, Grows st.floating (st.floating ++ [(p.pos, n)]) := by
          intro n q m e; rw [lookup_append, e]; rfl
        have here : ∀ n : Str, (st.floating ++ [(p.pos, n)]).lookup p.pos = some n := by
          intro n; rw [lookup_append, hl]; simp
        have places : ∀ n : Str, ∀ e ∈ st.floating ++ [(p.pos, n)], netAt s e.1 = none := by
          intro n e he
          rcases List.mem_append.1 he with m | m
          · exact h.places e m
          · rw [List.mem_singleton.1 m]; exact hn
        have names : ∀ n : Str, (∀ e ∈ st.floating, e.2 ≠ n) → ((st.floating ++ [(p.pos, n)]).map Prod.snd).Nodup := by
          intro n hne
          rw [List.map_append, List.map_cons, List.map_nil]
          refine List.nodup_append.2 ⟨h.names, by simp, ?_⟩
          intro a ha b hb
          obtain ⟨e, he, rfl⟩ := List.mem_map.1 ha
          rw [List.mem_singleton.1 hb]
          exact hne e he
        by_cases hb : behavioural ref = true
        · simp only [if_pos hb]
          refine ⟨⟨h.low, ?_, ?_, places _⟩, grow _, by rw [here]; rfl, by rw [here]; simp⟩
          · intro e he
            rcases List.mem_append.1 he with m | m
            · rcases h.made e m with ⟨k, a, b, c⟩ | ⟨k, a, b⟩
              · exact Or.inl ⟨k, a, b, c⟩
              · exact Or.inr ⟨k, by simp only; omega, b⟩
            · rw [List.mem_singleton.1 m]; exact Or.inr ⟨st.beh, by simp, rfl⟩
          · apply names
            intro e he hc
            rcases h.made e he with ⟨k, _, _, c⟩ | ⟨k, a, c⟩
            · rw [hc] at c; simp at c
            · rw [hc] at c
              simp only [List.cons.injEq, true_and] at c
              have := show_inj _ _ c
              omega
        · simp only [if_neg hb]
          refine ⟨⟨Nat.le_succ_of_le h.low, ?_, ?_, places _⟩, grow _, by rw [here]; rfl, by rw [here]; simp⟩
          · intro e he
            rcases List.mem_append.1 he with m | m
            · rcases h.made e m with ⟨k, a, b, c⟩ | ⟨k, a, b⟩
              · exact Or.inl ⟨k, a, by simp only; omega, c⟩
              · exact Or.inr ⟨k, a, b⟩
            · rw [List.mem_singleton.1 m]; exact Or.inl ⟨st.top + 1, by have := h.low; omega, Nat.le_refl _, rfl⟩
          · apply names
            intro e he hc
            rcases h.made e he with ⟨k, _, a, c⟩ | ⟨k, a, c⟩
            · rw [hc] at c
              simp only [List.cons.injEq, true_and] at c
              have := twoDigits_inj _ _ c
              omega
            · rw [hc] at c; simp at c

theorem pinNets_all (s : Sheet) (base : Nat) (ref : Str) : ∀ (ps : List Pin) (st : St), Inv s base st →
    Inv s base (pinNets s ref st ps).1 ∧ Grows st.floating (pinNets s ref st ps).1.floating ∧
    (pinNets s ref st ps).2 = ps.map (expected s (pinNets s ref st ps).1.floating ref) ∧
    ∀ p ∈ ps, Settled s (pinNets s ref st ps).1.floating ref p := by
  intro ps
  induction ps with
  | nil => intro st h; exact ⟨h, fun _ _ e => e, rfl, by simp⟩
  | cons p ps ih =>
    intro st h
    obtain ⟨a1, a2, a3, a4⟩ := pinNet_step s base ref st p h
    obtain ⟨b1, b2, b3, b4⟩ := ih _ a1
    obtain ⟨c1, c2⟩ := expected_grows s _ _ b2 ref p a4
    simp only [pinNets]
    refine ⟨b1, fun q n e => b2 q n (a2 q n e), ?_, ?_⟩
    · rw [List.map_cons, c1, ← a3, ← b3]
    · intro q hq
      rcases List.mem_cons.1 hq with rfl | m
      · exact c2
      · exact b4 q m

theorem portsFrom_all (s : Sheet) (base : Nat) : ∀ (cs : List Part) (st : St), Inv s base st →
    Inv s base (portsFrom s st cs).1 ∧ Grows st.floating (portsFrom s st cs).1.floating ∧
    (portsFrom s st cs).2 = cs.map (fun c => c.pins.map (expected s (portsFrom s st cs).1.floating c.ref)) ∧
    ∀ c ∈ cs, ∀ p ∈ c.pins, Settled s (portsFrom s st cs).1.floating c.ref p := by
  intro cs
  induction cs with
  | nil => intro st h; exact ⟨h, fun _ _ e => e, rfl, by simp⟩
  | cons c cs ih =>
    intro st h
    obtain ⟨a1, a2, a3, a4⟩ := pinNets_all s base c.ref c.pins st h
    obtain ⟨b1, b2, b3, b4⟩ := ih _ a1
    simp only [portsFrom]
    refine ⟨b1, fun q n e => b2 q n (a2 q n e), ?_, ?_⟩
    · rw [List.map_cons, ← b3, a3]
      congr 1
      exact List.map_congr_left (fun p hp => (expected_grows s _ _ b2 c.ref p (a4 p hp)).1.symm)
    · intro d hd p hp
      rcases List.mem_cons.1 hd with rfl | m
      · exact (expected_grows s _ _ b2 d.ref p (a4 p hp)).2
      · exact b4 d m p hp

/-- One table answers for all pins. -/
theorem ports_table (s : Sheet) (cs : List Part) : ∃ st : St, Inv s (highest s) st ∧
    ports s cs = cs.map (fun c => c.pins.map (expected s st.floating c.ref)) ∧ ∀ c ∈ cs, ∀ p ∈ c.pins, Settled s st.floating c.ref p := by
  have h0 : Inv s (highest s) ⟨highest s, 0, []⟩ := ⟨Nat.le_refl _, by simp, by simp, by simp⟩
  obtain ⟨a, _, b, c⟩ := portsFrom_all s _ cs _ h0
  exact ⟨_, a, b, c⟩

/-! ### Connected and floating in the words of the specification -/

theorem find_first {α : Type} (l : List α) (f : α → Bool) (x : α) (h : l.find? f = some x) : ∃ a b, l = a ++ x :: b ∧ f x = true ∧ ∀ y ∈ a, f y = false := by
  induction l with
  | nil => simp at h
  | cons y l ih =>
    simp only [List.find?_cons] at h
    cases hy : f y with
    | true => rw [hy] at h; simp only [Option.some.injEq] at h; subst h; exact ⟨[], l, rfl, hy, by simp⟩
    | false =>
      rw [hy] at h
      obtain ⟨a, b, e, h1, h2⟩ := ih h
      refine ⟨y :: a, b, by rw [e]; rfl, h1, ?_⟩
      intro z hz
      rcases List.mem_cons.1 hz with rfl | m
      · exact hy
      · exact h2 z m

theorem find_unique {α : Type} (f : α → Bool) (x : α) (b : List α) (hx : f x = true) : ∀ a : List α, (∀ y ∈ a, f y = false) → (a ++ x :: b).find? f = some x := by
  intro a
  induction a with
  | nil => intro _; simp [hx]
  | cons y a ih => intro h; rw [List.cons_append, List.find?_cons, h y (by simp)]; exact ih (fun z hz => h z (by simp [hz]))

theorem labels_none (s : Sheet) (p : Pos) : s.labels.find? (fun l => l.1 = p) = none ↔ ∀ l ∈ s.labels, l.1 ≠ p := by
  rw [List.find?_eq_none]; simp

theorem netAt_wired (s : Sheet) (p : Pos) (n : Str) : netAt s p = some n ↔ Wired s p n := by
  constructor
  · intro h
    unfold netAt at h
    cases hl : s.labels.find? (fun l => l.1 = p) with
    | some l =>
      rw [hl] at h
      simp only [Option.some.injEq] at h
      obtain ⟨a, b, e, h1, h2⟩ := find_first _ _ _ hl
      obtain ⟨lp, ln⟩ := l
      have : lp = p := by simpa using h1
      subst this
      rw [← h]
      exact .label a b ln e (fun y hy => by simpa using h2 y hy)
    | none =>
      rw [hl] at h
      simp only at h
      cases hw : s.wires.find? (fun w => w.1 = p || w.2.1 = p) with
      | none => rw [hw] at h; simp at h
      | some w =>
        rw [hw] at h
        simp only [Option.some.injEq] at h
        obtain ⟨a, b, e, h1, h2⟩ := find_first _ _ _ hw
        obtain ⟨q, r, m⟩ := w
        rw [← h]
        exact .wire a b q r m ((labels_none s p).1 hl) e (fun y hy => by simpa using h2 y hy) (by simpa using h1)
  · intro h
    unfold netAt
    cases h with
    | label a b m e h1 =>
      rw [e, find_unique (fun l : Pos × Str => decide (l.1 = p)) (p, m) b (by simp) a (fun y hy => by simpa using h1 y hy)]
      rfl
    | wire a b q r m h0 e h1 h2 =>
      rw [(labels_none s p).2 h0]
      simp only
      rw [e, find_unique (fun w : Pos × Pos × Str => decide (w.1 = p) || decide (w.2.1 = p)) (q, r, m) b (by simpa using h2) a (fun y hy => by simpa using h1 y hy)]
      rfl

theorem netAt_floating (s : Sheet) (p : Pos) : netAt s p = none ↔ Floating s p := by
  unfold netAt Floating
  rw [← labels_none]
  cases hl : s.labels.find? (fun l => l.1 = p) with
  | some l => simp
  | none =>
    simp only [true_and]
    cases hw : s.wires.find? (fun w => w.1 = p || w.2.1 = p) with
    | some w =>
      obtain ⟨a, b, e, h1, _⟩ := find_first _ _ _ hw
      constructor
      · intro h; simp at h
      · intro h
        have := h w (by rw [e]; simp)
        simp [this.1, this.2] at h1
    | none =>
      rw [List.find?_eq_none] at hw
      simp only [true_iff]
      intro w hm
      simpa using hw w hm

theorem leftOut_iff (ref : Str) (p : Pin) : (behavioural ref && p.mark) = true ↔ LeftOut ref p := by
  unfold LeftOut behavioural
  cases ref with
  | nil => simp
  | cons c r => simp [or_assoc, and_comm]

theorem net_pin (f : Part → Pin → Str) (cs : List Part) (i j : Nat) (ref : Str) (p : Pin) (hp : PinOf cs i j ref p) (n : Str) :
    Net (cs.map (fun c => c.pins.map (f c))) i j n → ∃ c ∈ cs, c.ref = ref ∧ p ∈ c.pins ∧ n = f c p := by
  rintro ⟨l, h1, h2⟩
  obtain ⟨c, h3, h4, h5⟩ := hp
  rw [List.getElem?_map, h3, Option.map_some, Option.some.injEq] at h1
  subst h1
  rw [List.getElem?_map, h5, Option.map_some, Option.some.injEq] at h2
  exact ⟨c, List.mem_of_getElem? h3, h4, List.mem_of_getElem? h5, h2.symm⟩

/-! ### C68 -/

/-- Every component gets one net per pin, in the order of its pins. -/
theorem C68_one_per_pin (s : Sheet) (cs : List Part) : (ports s cs).map List.length = cs.map (fun c => c.pins.length) := by
  obtain ⟨st, _, e, _⟩ := ports_table s cs
  rw [e, List.map_map]
  apply List.map_congr_left
  intro c _; simp

/-- A pin at a label or at the end of a wire gets that net. -/
theorem C68_connected (s : Sheet) (cs : List Part) (i j : Nat) (ref : Str) (p : Pin) (hp : PinOf cs i j ref p) (hl : ¬ LeftOut ref p) (n m : Str)
    (hw : Wired s p.pos n) (hn : Net (ports s cs) i j m) : m = n := by
  obtain ⟨st, _, e, _⟩ := ports_table s cs
  rw [e] at hn
  obtain ⟨c, _, rfl, _, rfl⟩ := net_pin (fun c => expected s st.floating c.ref) cs i j ref p hp m hn
  unfold expected
  rw [if_neg (fun h => hl ((leftOut_iff _ _).1 h)), (netAt_wired s p.pos n).2 hw]

/-- A pin left to the simulator gets ¥, wherever it is. -/
theorem C68_left_out (s : Sheet) (cs : List Part) (i j : Nat) (ref : Str) (p : Pin) (hp : PinOf cs i j ref p) (hl : LeftOut ref p) (m : Str)
    (hn : Net (ports s cs) i j m) : m = "¥".toList := by
  obtain ⟨st, _, e, _⟩ := ports_table s cs
  rw [e] at hn
  obtain ⟨c, _, rfl, _, rfl⟩ := net_pin (fun c => expected s st.floating c.ref) cs i j ref p hp m hn
  unfold expected
  rw [if_pos ((leftOut_iff _ _).2 hl)]

/-- Two pins at the same place are on the same net, connected or floating, whatever component they belong to. -/
theorem C68_same_place (s : Sheet) (cs : List Part) (i j i' j' : Nat) (ref ref' : Str) (p p' : Pin) (hp : PinOf cs i j ref p) (hp' : PinOf cs i' j' ref' p')
    (hl : ¬ LeftOut ref p) (hl' : ¬ LeftOut ref' p') (hpos : p.pos = p'.pos) (n n' : Str) (hn : Net (ports s cs) i j n) (hn' : Net (ports s cs) i' j' n') : n = n' := by
  obtain ⟨st, _, e, _⟩ := ports_table s cs
  rw [e] at hn hn'
  obtain ⟨c, _, rfl, _, rfl⟩ := net_pin (fun c => expected s st.floating c.ref) cs i j ref p hp n hn
  obtain ⟨c', _, rfl, _, rfl⟩ := net_pin (fun c => expected s st.floating c.ref) cs i' j' ref' p' hp' n' hn'
  unfold expected
  rw [if_neg (fun h => hl ((leftOut_iff _ _).1 h)), if_neg (fun h => hl' ((leftOut_iff _ _).1 h)), hpos]

/-- What a floating pin gets. -/
theorem floating_net (s : Sheet) (cs : List Part) : ∃ st : St, Inv s (highest s) st ∧
    ∀ (i j : Nat) (ref : Str) (p : Pin) (n : Str), PinOf cs i j ref p → ¬ LeftOut ref p → Floating s p.pos → Net (ports s cs) i j n → (p.pos, n) ∈ st.floating := by
  obtain ⟨st, hi, e, hs⟩ := ports_table s cs
  refine ⟨st, hi, ?_⟩
  intro i j ref p n hp hl hf hn
  rw [e] at hn
  obtain ⟨c, hc, rfl, hm, rfl⟩ := net_pin (fun c => expected s st.floating c.ref) cs i j ref p hp n hn
  have hmark : ¬ (behavioural c.ref && p.mark) = true := fun h => hl ((leftOut_iff _ _).1 h)
  have hnone := (netAt_floating s p.pos).2 hf
  unfold expected
  rw [if_neg hmark, hnone]
  rcases hs c hc p hm with h | h | h
  · exact absurd h hmark
  · rw [hnone] at h; simp at h
  · obtain ⟨n, h2⟩ := Option.isSome_iff_exists.1 h
    rw [h2]
    exact lookup_some_mem _ _ _ h2

theorem same_name (l : List (Pos × Str)) (h : (l.map Prod.snd).Nodup) (a b : Pos) (n : Str) (ha : (a, n) ∈ l) (hb : (b, n) ∈ l) : a = b := by
  induction l with
  | nil => simp at ha
  | cons e l ih =>
    rw [List.map_cons, List.nodup_cons] at h
    rcases List.mem_cons.1 ha with e1 | m1
    · rcases List.mem_cons.1 hb with e2 | m2
      · rw [← e1] at e2; simpa using (congrArg Prod.fst e2).symm
      · exact absurd (List.mem_map.2 ⟨(b, n), m2, by rw [← e1]⟩) h.1
    · rcases List.mem_cons.1 hb with e2 | m2
      · exact absurd (List.mem_map.2 ⟨(a, n), m1, by rw [← e2]⟩) h.1
      · exact ih h.2 m1 m2

/-- Floating pins at different places are on different nets. -/
theorem C68_floating_apart (s : Sheet) (cs : List Part) (i j i' j' : Nat) (ref ref' : Str) (p p' : Pin) (hp : PinOf cs i j ref p) (hp' : PinOf cs i' j' ref' p')
    (hl : ¬ LeftOut ref p) (hl' : ¬ LeftOut ref' p') (hf : Floating s p.pos) (hf' : Floating s p'.pos) (hpos : p.pos ≠ p'.pos) (n n' : Str)
    (hn : Net (ports s cs) i j n) (hn' : Net (ports s cs) i' j' n') : n ≠ n' := by
  obtain ⟨st, hi, h⟩ := floating_net s cs
  rintro rfl
  exact hpos (same_name _ hi.names _ _ n (h i j ref p n hp hl hf hn) (h i' j' ref' p' n hp' hl' hf' hn'))

/-- The net of a floating pin is that of no wire, nor node 0, nor the ¥ of the pins left to the simulator (provided no wire has a name
that starts with ¥). -/
theorem C68_floating_fresh (s : Sheet) (hy : ∀ w ∈ s.wires, w.2.2.head? ≠ some '¥') (cs : List Part) (i j : Nat) (ref : Str) (p : Pin) (hp : PinOf cs i j ref p)
    (hl : ¬ LeftOut ref p) (hf : Floating s p.pos) (n : Str) (hn : Net (ports s cs) i j n) :
    (∀ w ∈ s.wires, w.2.2 ≠ n) ∧ n ≠ "0".toList ∧ n ≠ "¥".toList := by
  obtain ⟨st, hi, h⟩ := floating_net s cs
  rcases hi.made _ (h i j ref p n hp hl hf hn) with ⟨k, h1, h2, h3⟩ | ⟨k, h1, h3⟩
  · simp only at h3
    refine ⟨fun w hw e => ?_, by rw [h3]; simp, by rw [h3]; simp⟩
    have hnum : number w.2.2 = some (k : Int) := by rw [e, h3]; exact twoDigits_parse k
    have := (foldl_higher s.wires 0).2 w hw k hnum
    have h1' : highest s < k := h1
    unfold highest at h1'
    omega
  · simp only at h3
    refine ⟨fun w hw e => hy w hw (by rw [e, h3]; rfl), by rw [h3]; simp, ?_⟩
    rw [h3]
    intro e
    have : showNat k = [] := by simpa using e
    exact Lemmas.PyStr.showNat_ne k this

/-- So a floating pin shares its net with no pin that hangs on a wire. -/
theorem C68_floating_alone (s : Sheet) (hy : ∀ w ∈ s.wires, w.2.2.head? ≠ some '¥') (cs : List Part) (i j i' j' : Nat) (ref ref' : Str) (p p' : Pin)
    (hp : PinOf cs i j ref p) (hp' : PinOf cs i' j' ref' p') (hl : ¬ LeftOut ref p) (hl' : ¬ LeftOut ref' p') (hf : Floating s p.pos)
    (hlab : ∀ l ∈ s.labels, l.1 ≠ p'.pos) (hwire : ¬ Floating s p'.pos) (n n' : Str)
    (hn : Net (ports s cs) i j n) (hn' : Net (ports s cs) i' j' n') : n ≠ n' := by
  obtain ⟨f1, f2, _⟩ := C68_floating_fresh s hy cs i j ref p hp hl hf n hn
  cases hna : netAt s p'.pos with
  | none => exact absurd ((netAt_floating s _).1 hna) hwire
  | some m =>
    have hW := (netAt_wired s _ _).1 hna
    have := C68_connected s cs i' j' ref' p' hp' hl' m n' hW hn'
    subst this
    cases hW with
    | label a b z e h1 => exact absurd rfl (hlab (p'.pos, z) (by rw [e]; simp))
    | wire a b q r z h0 e h1 h2 =>
      by_cases hg : z = "GND".toList
      · rw [if_pos hg]; exact f2
      · rw [if_neg hg]; exact fun x => f1 (q, r, z) (by rw [e]; simp) x.symm

/-! ### A case, and limits -/

def sheet1 : Sheet := ⟨[((0, 0), "GND".toList), ((500, 0), "out".toList)], [((0, 100), (500, 100), "N07".toList), ((0, 100), (0, 0), "GND".toList)]⟩

theorem C68_sample : ports sheet1 [⟨"R1".toList, [⟨(500, 0), false⟩, ⟨(0, 0), false⟩]⟩, ⟨"C1".toList, [⟨(500, 100), false⟩, ⟨(900, 0), false⟩]⟩,
      ⟨"Ã1".toList, [⟨(900, 0), false⟩, ⟨(900, 100), true⟩, ⟨(900, 200), false⟩]⟩, ⟨"R2".toList, [⟨(900, 300), false⟩, ⟨(0, 100), false⟩]⟩] =
    [["out".toList, "0".toList], ["N07".toList, "N08".toList], ["N08".toList, "¥".toList, "¥0".toList], ["N09".toList, "N07".toList]] := by
  decide +kernel

example : ¬ LeftOut "C1".toList ⟨(900, 0), false⟩ ∧ Floating sheet1 (900, 0) ∧ Floating sheet1 (900, 300) := by
  refine ⟨fun h => by simp [LeftOut] at h, ?_, ?_⟩ <;> (unfold Floating sheet1; decide)

/-- Not true of labels: their names are not counted, so a floating pin can be given the name of a label, and is shorted to it. -/
theorem C68_label_collision : ports ⟨[((0, 0), "N01".toList)], []⟩ [⟨"R1".toList, [⟨(0, 0), false⟩, ⟨(0, 400), false⟩]⟩] = [["N01".toList, "N01".toList]] := by
  decide +kernel

/-- Not true of wires that pass through a pin: only the ends of a wire are looked at. -/
theorem C68_middle_of_wire : ports ⟨[], [((0, 0), (0, 200), "a".toList)]⟩ [⟨"R1".toList, [⟨(0, 100), false⟩, ⟨(0, 200), false⟩]⟩] = [["N01".toList, "a".toList]] := by
  decide +kernel

end Props.QNets
