import Verif.Model.UnitObj
import Verif.Props.FloatFormat
/-
C92: numbers with units as objects.
-/
namespace Props.UnitObj
open Model.UnitObj
open Model.FloatUnit (parse formatEng exactLog strUnit)
open Model.PyStr (strip)
open Spec.EngNumber (UnitText)
open Props.FloatUnit (EndVisible)

/-! ### Specification -/

/-- The operation changes the object in place. -/
def Touches (o : Op) (a : Nat) : Prop := o = .clean a ∨ ∃ u, o = .setUnit a u

/-- The units whose sign, behind a number, is read as this unit. -/
def faithful : List Str := ["", "Ω", "V", "A", "F", "H", "W", "C", "J", "s", "Hz", "°C"].map String.toList

/-! ### Creation -/

theorem parse_strip_ne (s : Str) (r : ℚ × Str) (h : parse s = some r) : strip s ≠ [] := by
  intro he
  unfold parse at h
  rw [he] at h
  simp at h

/-- C92: a number made from a text has the value of the text, shows the text (without the blanks around it) and has the unit of the text, if it is a known one; a unit given
as well must be the same, unless the text has none. Anything else is refused. -/
theorem C92_from_text (lg : ℚ → ℤ) (h : Heap) (s unit : Str) :
    (parse s = none → make h (.text s) unit = .error .value) ∧
    (∀ q u0, parse s = some (q, u0) →
      (u0 ≠ [] → unit ≠ [] → unit ≠ u0 → make h (.text s) unit = .error .runtime) ∧
      (u0 = [] ∨ unit = [] ∨ unit = u0 → ∃ o, make h (.text s) unit = .ok o ∧ o.value = q ∧ text lg o = strip s ∧ o.unit = unitOf (if u0 = [] then unit else u0))) := by
  constructor
  · intro hp; show fromText s unit = _; unfold fromText; rw [hp]
  · intro q u0 hp
    constructor
    · intro h0 h1 h2
      show fromText s unit = _
      unfold fromText; rw [hp]
      simp only
      rw [if_pos h0, if_pos ⟨h1, h2⟩]
    · intro hc
      have ht : ∀ u, text lg ⟨q, some (strip s), u⟩ = strip s := by
        intro u
        unfold text
        have := parse_strip_ne s _ hp
        cases hs : strip s with
        | nil => exact absurd hs this
        | cons c r => rfl
      show ∃ o, fromText s unit = .ok o ∧ _
      unfold fromText; rw [hp]
      simp only
      by_cases h0 : u0 = []
      · rw [if_neg (by simpa using h0), if_pos h0]
        exact ⟨_, rfl, rfl, ht _, rfl⟩
      · rw [if_pos h0, if_neg (by rintro ⟨a, b⟩; rcases hc with h | h | h <;> contradiction), if_neg h0]
        exact ⟨_, rfl, rfl, ht _, rfl⟩

/-- C92: a number made from a number, or from another number with a unit, has its value and the unit given. -/
theorem C92_from_number (lg : ℚ → ℤ) (h : Heap) (v : Arg) (q : ℚ) (unit : Str) (hv : number h v = some q) :
    ∃ o, make h v unit = .ok o ∧ o.value = q ∧ o.unit = unitOf unit ∧ text lg o = formatEng lg q ++ (unitOf unit).sign := by
  cases v with
  | text s => simp [number] at hv
  | num r =>
    simp only [number, Option.some.injEq] at hv
    subst hv
    exact ⟨_, rfl, rfl, rfl, rfl⟩
  | obj a =>
    change (h[a]?).map Obj.value = some q at hv
    unfold make
    simp only
    cases ho : h[a]? with
    | none => rw [ho] at hv; simp at hv
    | some o =>
      rw [ho] at hv
      simp only [Option.map_some, Option.some.injEq] at hv
      subst hv
      exact ⟨_, rfl, rfl, rfl, rfl⟩

/-! ### Histories -/

theorem setUnit_value (o : Obj) (u : Str) : (setUnit o u).1.value = o.value ∧ (setUnit o u).1.original = none := by
  unfold setUnit
  split
  · exact ⟨rfl, rfl⟩
  · split <;> exact ⟨rfl, rfl⟩

theorem alloc_keeps (h : Heap) (r : Except Err Obj) (a : Nat) (o : Obj) (ho : h[a]? = some o) : (alloc h r).1[a]? = some o := by
  cases r with
  | error e => exact ho
  | ok p =>
    show (h ++ [p])[a]? = some o
    rw [List.getElem?_append_left (List.getElem?_eq_some_iff.1 ho).1]
    exact ho

theorem step_keeps (h : Heap) (op : Op) (a : Nat) (o : Obj) (ho : h[a]? = some o) :
    ∃ o', (step h op).1[a]? = some o' ∧ o'.value = o.value ∧ (¬ Touches op a → o' = o) := by
  cases op with
  | make v u => exact ⟨o, alloc_keeps h _ a o ho, rfl, fun _ => rfl⟩
  | clean b =>
    unfold step
    by_cases hb : b = a
    · subst hb
      simp only [ho]
      refine ⟨clean o, ?_, rfl, fun hn => absurd (.inl rfl) hn⟩
      rw [List.getElem?_set_self (List.getElem?_eq_some_iff.1 ho).1]
    · cases hc : h[b]? with
      | none => exact ⟨o, by simpa [hc] using ho, rfl, fun _ => rfl⟩
      | some p =>
        simp only [hc]
        refine ⟨o, ?_, rfl, fun _ => rfl⟩
        rw [List.getElem?_set_ne hb]
        exact ho
  | setUnit b u =>
    unfold step
    by_cases hb : b = a
    · subst hb
      simp only [ho]
      refine ⟨(setUnit o u).1, ?_, (setUnit_value o u).1, fun hn => absurd (.inr ⟨u, rfl⟩) hn⟩
      rw [List.getElem?_set_self (List.getElem?_eq_some_iff.1 ho).1]
    · cases hc : h[b]? with
      | none => exact ⟨o, by simpa [hc] using ho, rfl, fun _ => rfl⟩
      | some p =>
        simp only [hc]
        refine ⟨o, ?_, rfl, fun _ => rfl⟩
        rw [List.getElem?_set_ne hb]
        exact ho
  | arith k b v =>
    refine ⟨o, ?_, rfl, fun _ => rfl⟩
    unfold step
    simp only
    split
    · exact alloc_keeps h _ a o ho
    · exact ho
  | toFloat v b =>
    refine ⟨o, ?_, rfl, fun _ => rfl⟩
    show (toFloat h v b).1[a]? = some o
    cases v with
    | obj c => exact ho
    | num q => exact alloc_keeps h _ a o ho
    | text s =>
      unfold toFloat
      simp only
      split
      · exact alloc_keeps h (.ok _) a o ho
      · split_ifs <;> exact ho

/-- C92: whatever is done, the value of a number never changes; its text and unit change only by cleaning it or by assigning its unit. -/
theorem C92_values_fixed (h : Heap) (a : Nat) (o : Obj) (ho : h[a]? = some o) (ops : List Op) :
    ∃ o', (exec h ops)[a]? = some o' ∧ o'.value = o.value ∧ ((∀ op ∈ ops, ¬ Touches op a) → o' = o) := by
  induction ops generalizing h o with
  | nil => exact ⟨o, ho, rfl, fun _ => rfl⟩
  | cons op r ih =>
    obtain ⟨o1, a1, a2, a3⟩ := step_keeps h op a o ho
    obtain ⟨o2, b1, b2, b3⟩ := ih (step h op).1 o1 a1
    refine ⟨o2, b1, b2.trans a2, ?_⟩
    intro hn
    rw [b3 (fun x hx => hn x (by simp [hx])), a3 (hn op (by simp))]

/-- C92: after cleaning, or after assigning a unit, the text is the value in engineering notation followed by the sign of the unit. A unit is assigned by its symbol or by
its name; anything else is a KeyError. -/
theorem C92_printed (lg : ℚ → ℤ) (o : Obj) (u : Str) :
    text lg (clean o) = formatEng lg o.value ++ o.unit.sign ∧
    text lg (setUnit o u).1 = formatEng lg o.value ++ (setUnit o u).1.unit.sign ∧
    (∀ x, units.lookup u = some x → (setUnit o u).1.unit = x ∧ (setUnit o u).2 = true) ∧
    (units.lookup u = none → (∃ p ∈ units, p.2.one = u ∨ p.2.many = u) → (setUnit o u).2 = true ∧ ((setUnit o u).1.unit.one = u ∨ (setUnit o u).1.unit.many = u)) ∧
    (units.lookup u = none → (∀ p ∈ units, p.2.one ≠ u ∧ p.2.many ≠ u) → (setUnit o u).2 = false ∧ (setUnit o u).1.unit = o.unit) := by
  refine ⟨rfl, ?_, ?_, ?_, ?_⟩
  · obtain ⟨h1, h2⟩ := setUnit_value o u
    unfold text
    rw [h2, h1]
  · intro x hx
    unfold setUnit
    rw [hx]
    exact ⟨rfl, rfl⟩
  · rintro hn ⟨p, hp, hpu⟩
    unfold setUnit
    rw [hn]
    simp only
    cases hf : units.find? (fun p => p.2.one = u || p.2.many = u) with
    | none =>
      rw [List.find?_eq_none] at hf
      have := hf p hp
      simp only [Bool.or_eq_true, decide_eq_true_eq] at this
      exact absurd hpu this
    | some x =>
      have := List.find?_some hf
      simp only [Bool.or_eq_true, decide_eq_true_eq] at this
      exact ⟨rfl, this⟩
  · intro hn hall
    unfold setUnit
    rw [hn]
    simp only
    cases hf : units.find? (fun p => p.2.one = u || p.2.many = u) with
    | none => exact ⟨rfl, rfl⟩
    | some x =>
      have h1 := List.find?_some hf
      have h2 := hall x (List.mem_of_find?_eq_some hf)
      simp only [Bool.or_eq_true, decide_eq_true_eq] at h1
      rcases h1 with h | h
      · exact absurd h h2.1
      · exact absurd h h2.2

/-! ### Reading the text back -/

theorem faithful_ok : ∀ u ∈ faithful, UnitText u ∧ EndVisible u ∧ (unitOf u).sign = u := by
  intro u hu
  simp only [faithful, List.map_cons, List.map_nil, List.mem_cons, List.not_mem_nil, or_false] at hu
  rcases hu with rfl | rfl | rfl | rfl | rfl | rfl | rfl | rfl | rfl | rfl | rfl | rfl
  all_goals
    refine ⟨?_, ?_, by decide +kernel⟩
    · intro c hc
      revert c
      simp only [Option.mem_def]
      decide +kernel
    · intro c hc
      revert c
      simp only [Option.mem_def]
      decide +kernel

/-- C92: a number with one of the usual units, printed and read again, has the same unit and the same value to the printed precision (six digits). -/
theorem C92_read_back (lg : ℚ → ℤ) (hl : Props.FloatFormat.Near lg) (h : Heap) (o : Obj) (ho : o.original = none) (hu : o.unit.sign ∈ faithful) :
    ∃ o', make h (.text (text lg o)) [] = .ok o' ∧ o'.unit.sign = o.unit.sign ∧ |o'.value - o.value| ≤ 5 / 1000000 * |o.value| := by
  obtain ⟨h1, h2, h3⟩ := faithful_ok o.unit.sign hu
  have ht : text lg o = strUnit lg o.value o.unit.sign := by unfold text; rw [ho]; rfl
  have hp : ∃ r : ℚ, parse (strUnit lg o.value o.unit.sign) = some (r, o.unit.sign) ∧ |r - o.value| ≤ 5 / 1000000 * |o.value| := by
    by_cases hq : o.value = 0
    · rw [hq]
      refine ⟨0, ?_, by simp⟩
      have : strUnit lg 0 o.unit.sign = ['0'] ++ [] ++ o.unit.sign := by simp [strUnit, formatEng, Model.FloatUnit.fmtG]
      rw [this]
      exact Props.FloatUnit.C40_plain ['0'] [] o.unit.sign 0 (.unsigned _ _ (by
        have := Spec.EngNumber.Unsigned.int ['0'] (by simp [Spec.EngNumber.Digits]) (by simp)
        simpa [Nat.ofDigitChars] using this)) (by simp [Spec.EngNumber.Blanks]) h1 (fun _ => rfl) h2
    · exact Props.FloatFormat.C39_round_trip lg hl o.value hq o.unit.sign h1 h2
  obtain ⟨r, hp, hr⟩ := hp
  rw [ht]
  show ∃ o', fromText (strUnit lg o.value o.unit.sign) [] = .ok o' ∧ _
  unfold fromText
  rw [hp]
  simp only
  by_cases h0 : o.unit.sign = []
  · rw [if_neg (by simpa using h0)]
    refine ⟨_, rfl, ?_, hr⟩
    rw [h0]
    show (unitOf []).sign = []
    decide +kernel
  · rw [if_pos h0, if_neg (by simp)]
    exact ⟨_, rfl, h3, hr⟩

/-! ### Comparison and arithmetic -/

/-- C92: a number equals a text exactly if the text is a number of the same value, however it is written, and equals another number exactly if the values are
the same; units play no part. -/
theorem C92_equal (h : Heap) (o : Obj) (v : Arg) :
    (equal h o v = true ↔ (∃ s q u, v = .text s ∧ parse s = some (q, u) ∧ o.value = q) ∨ (number h v = some o.value)) := by
  cases v with
  | text s =>
    unfold equal
    simp only
    constructor
    · intro he
      cases hp : parse s with
      | none => rw [((C92_from_text (fun _ => 0) h s []).1 hp)] at he; simp at he
      | some r =>
        obtain ⟨q, u0⟩ := r
        obtain ⟨o', h1, h2, _⟩ := ((C92_from_text (fun _ => 0) h s []).2 q u0 hp).2 (.inr (.inl rfl))
        rw [h1] at he
        simp only [decide_eq_true_eq] at he
        exact .inl ⟨s, q, u0, rfl, hp, by rw [he, h2]⟩
    · rintro (⟨s', q, u, hv, hp, hq⟩ | hn)
      · simp only [Arg.text.injEq] at hv
        subst hv
        obtain ⟨o', h1, h2, _⟩ := ((C92_from_text (fun _ => 0) h s []).2 q u hp).2 (.inr (.inl rfl))
        rw [h1]
        simp only [decide_eq_true_eq]
        rw [hq, h2]
      · simp [number] at hn
  | num q =>
    unfold equal number
    simp only [decide_eq_true_eq, Option.some.injEq]
    constructor
    · intro he; exact .inr he.symm
    · rintro (⟨s, _, _, hv, _⟩ | hn)
      · simp at hv
      · exact hn.symm
  | obj a =>
    unfold equal
    simp only
    cases hn : number h (.obj a) with
    | none => simp
    | some q =>
      simp only [decide_eq_true_eq, Option.some.injEq]
      constructor
      · intro he; exact .inr he.symm
      · rintro (⟨s, _, _, hv, _⟩ | hn)
        · simp at hv
        · exact hn.symm

/-- C92: sums, differences, products and quotients are new numbers without unit; the operands stay as they are. -/
theorem C92_arithmetic (h : Heap) (k : Arith) (a : Nat) (v : Arg) (x y : ℚ) (hx : (h[a]?).map Obj.value = some x) (hy : number h v = some y) (hz : ¬ (k = .div ∧ y = 0)) :
    ∃ o, step h (.arith k a v) = (h ++ [o], .obj h.length) ∧ o.unit = noUnit ∧ o.original = none ∧
      o.value = (match k with | .add => x + y | .sub => x - y | .mul => x * y | .div => x / y) := by
  unfold step
  simp only [hx, hy]
  cases k with
  | add => exact ⟨_, rfl, rfl, rfl, rfl⟩
  | sub => exact ⟨_, rfl, rfl, rfl, rfl⟩
  | mul => exact ⟨_, rfl, rfl, rfl, rfl⟩
  | div =>
    have : ¬ y = 0 := fun hy => hz ⟨rfl, hy⟩
    refine ⟨⟨x / y, none, noUnit⟩, ?_, rfl, rfl, rfl⟩
    unfold compute
    simp only
    rw [if_neg this]
    rfl

/-- C92: to_float gives a number with unit back as it is (the same object), makes a new one of a number or of a text that can be read, and gives a text
that cannot be read back unchanged, or refuses it. -/
theorem C92_to_float (h : Heap) (b : Bool) :
    (∀ a, toFloat h (.obj a) b = (h, .obj a)) ∧
    (∀ q, ∃ o, toFloat h (.num q) b = (h ++ [o], .obj h.length) ∧ o.value = q) ∧
    (∀ s q u, parse s = some (q, u) → ∃ o, toFloat h (.text s) b = (h ++ [o], .obj h.length) ∧ o.value = q ∧ o.original = some (strip s)) ∧
    (∀ s, parse s = none → toFloat h (.text s) b = (h, if b then .text s else .error .value)) := by
  refine ⟨fun a => rfl, fun q => ⟨_, rfl, rfl⟩, ?_, ?_⟩
  · intro s q u hp
    unfold toFloat make fromText
    simp only [hp]
    by_cases hu : u = []
    · subst hu
      exact ⟨_, rfl, rfl, rfl⟩
    · simp only [ne_eq, hu, not_false_eq_true, if_true, not_true_eq_false, false_and, if_false]
      exact ⟨_, rfl, rfl, rfl⟩
  · intro s hp
    unfold toFloat make fromText
    simp only [hp]
    cases b <;> rfl

/-! ### Instances and limits -/

/-- An instance of C92: "4k7" is 4700, shows its text, shows 4.7kΩ after its unit was named, equals "4700" and "4.7k". -/
theorem C92_sample :
    ∃ o, make [] (.text " 4k7".toList) [] = .ok o ∧ o.value = 4700 ∧ text exactLog o = "4k7".toList ∧
      text exactLog (setUnit o "Ohms".toList).1 = "4.7kΩ".toList ∧ (setUnit o "Ohms".toList).2 = true ∧
      equal [] o (.text "4700".toList) = true ∧ equal [] o (.text "4.7 kV".toList) = true ∧ equal [] o (.text "abc".toList) = false ∧
      (setUnit o "Ohms".toList).1.unit.sign ∈ faithful := by
  refine ⟨⟨4700, some "4k7".toList, noUnit⟩, ?_, rfl, ?_, ?_, ?_, ?_, ?_, ?_, ?_⟩
  · have : parse " 4k7".toList = some (4700, []) := by decide +kernel
    show fromText " 4k7".toList [] = _
    unfold fromText
    rw [this]
    have hs : strip " 4k7".toList = "4k7".toList := by decide +kernel
    simp only [ne_eq, not_true_eq_false, if_false, hs]
    rfl
  all_goals decide +kernel

/-- Limits of C92: a unit that is not known is refused, but the text of the number is lost; cleaning what to_float gave cleans the number it was given; kelvins, percents,
degrees, radians and effective values are not read back as printed; a unit given as R contradicts a text with R. -/
theorem C92_limits :
    (setUnit ⟨4700, some "4k7".toList, noUnit⟩ "ppm".toList).2 = false ∧ (setUnit ⟨4700, some "4k7".toList, noUnit⟩ "ppm".toList).1.original = none ∧
    (∀ (h : Heap) (a : Nat) (o : Obj), h[a]? = some o → ∃ o', (exec h [.toFloat (.obj a) true, .clean a])[a]? = some o' ∧ o'.original = none) ∧
    (parse "5K".toList = some (5000, []) ∧ parse "5%".toList = some (1 / 20, [])) ∧
    (unitOf "°".toList = noUnit ∧ unitOf "Vrms".toList = noUnit ∧ unitOf "ad".toList = noUnit ∧ parse "5rad".toList = some (5, "ad".toList)) ∧
    (make [] (.text "4R7".toList) "R".toList).toOption.isNone = true := by
  refine ⟨by decide +kernel, by decide +kernel, ?_, ⟨by decide +kernel, by decide +kernel⟩,
    ⟨by decide +kernel, by decide +kernel, by decide +kernel, by decide +kernel⟩, by decide +kernel⟩
  intro h a o ho
  refine ⟨clean o, ?_, rfl⟩
  show (step h (.clean a)).1[a]? = _
  unfold step
  simp only [ho]
  rw [List.getElem?_set_self (List.getElem?_eq_some_iff.1 ho).1]

end Props.UnitObj
