import Verif.Model.RawConvert
import Verif.Props.RawSteps
/-
C96: the script raw_convert.
-/
namespace Props.RawConvert
open Model.RawConvert
open Model.RawFile (Err)
open Spec.RawSteps (table)
abbrev Str := List Char

/-- Specification: the trace of the file a name of the command line stands for: itself, or the voltage, or the current of that name, the first of
them that the file has. -/
inductive Means (names : List Str) (t : Str) : Option Str → Prop
  | itself : t ∈ names → Means names t (some t)
  | volt : t ∉ names → "V(".toList ++ t ++ ")".toList ∈ names → Means names t (some ("V(".toList ++ t ++ ")".toList))
  | curr : t ∉ names → "V(".toList ++ t ++ ")".toList ∉ names → "I(".toList ++ t ++ ")".toList ∈ names →
      Means names t (some ("I(".toList ++ t ++ ")".toList))
  | missing : t ∉ names → "V(".toList ++ t ++ ")".toList ∉ names → "I(".toList ++ t ++ ")".toList ∉ names → Means names t none

/-- Specification: the warning for a trace that is not in the file. -/
def warning (t : Str) : Msg := .line ("Warning: Trace ".toList ++ t ++ " not found".toList)

theorem pick_means (verbose : Bool) (names : List Str) (t : Str) : ∃ r, Means names t r ∧ (pick verbose names t).1 = r.toList ∧
    (r = none ↔ warning t ∈ (pick verbose names t).2) ∧ (∀ u, warning u ∈ (pick verbose names t).2 → u = t) ∧
    (verbose = false → (pick verbose names t).2 = if r = none then [warning t] else []) := by
  have hw : ∀ u v : Str, warning u = warning v → u = v := by
    intro u v h
    unfold warning at h
    injection h with h
    rw [List.append_assoc, List.append_assoc] at h
    exact List.append_cancel_right (List.append_cancel_left h)
  have ne1 : ∀ u v : Str, warning u ≠ Msg.line ("Trace ".toList ++ v ++ " not found. Searching for V(".toList ++ v ++ ")".toList) := by
    intro u v h
    unfold warning at h
    injection h with h
    have := congrArg List.head? h
    revert this
    simp
  have ne2 : ∀ u v : Str, warning u ≠ Msg.line ("Trace V(".toList ++ v ++ ") not found. Searching for I(".toList ++ v ++ ")".toList) := by
    intro u v h
    unfold warning at h
    injection h with h
    have := congrArg List.head? h
    revert this
    simp
  unfold pick voltage current
  by_cases h1 : t ∈ names
  · refine ⟨some t, .itself h1, ?_⟩
    rw [if_pos (List.contains_iff_mem.mpr h1)]
    simp
  · rw [if_neg (by simpa using h1)]
    by_cases h2 : "V(".toList ++ t ++ ")".toList ∈ names
    · refine ⟨some _, .volt h1 h2, ?_⟩
      simp only
      rw [if_pos (List.contains_iff_mem.mpr h2)]
      cases verbose
      · simp
      · refine ⟨rfl, ?_, ?_, by simp⟩
        · simpa using ne1 t t
        · intro u hu; exact absurd (by simpa using hu) (ne1 u t)
    · simp only
      rw [if_neg (by rw [List.contains_iff_mem]; exact h2)]
      by_cases h3 : "I(".toList ++ t ++ ")".toList ∈ names
      · refine ⟨some _, .curr h1 h2 h3, ?_⟩
        rw [if_pos (List.contains_iff_mem.mpr h3)]
        cases verbose
        · simp
        · refine ⟨rfl, ?_, ?_, by simp⟩
          · simp only [if_true, List.mem_append, List.mem_singleton, ne1, ne2, reduceCtorEq, or_self]
          · intro u hu
            simp only [if_true, List.mem_append, List.mem_singleton, ne1, ne2, or_self] at hu
      · refine ⟨none, .missing h1 h2 h3, ?_⟩
        rw [if_neg (by rw [List.contains_iff_mem]; exact h3)]
        refine ⟨rfl, ?_, ?_, ?_⟩
        · simp [warning]
        · intro u hu
          cases verbose
          · simp only [Bool.false_eq_true, if_false, List.nil_append, List.append_nil, List.mem_singleton] at hu
            exact hw u t hu
          · simp only [if_true, List.mem_append, List.mem_singleton, ne1, ne2, false_or] at hu
            exact hw u t hu
        · intro hv; subst hv; simp [warning]

theorem pickAll_eq (verbose : Bool) (names ts : List Str) :
    (pickAll verbose names ts).1 = ts.flatMap (fun t => (pick verbose names t).1) ∧
    (pickAll verbose names ts).2 = ts.flatMap (fun t => (pick verbose names t).2) := by
  induction ts with
  | nil => exact ⟨rfl, rfl⟩
  | cons t ts ih => rw [List.flatMap_cons, List.flatMap_cons, ← ih.1, ← ih.2]; exact ⟨rfl, rfl⟩

variable {V : Type}

/-- What the output of the whole file is, and how the script then ends. -/
def Whole (showV : V → Str) (pandas : Bool) (o : Opts) (d : List (Str × List V)) (n : Nat) (out : Out) (e : End) : Prop :=
  let text := table o.separator (d.map Prod.fst) ((List.range n).map (fun i => d.filterMap (fun c => c.2[i]?.map showV)))
  (o.output = none → e = .exit 0 ∧ out = if o.clipboard = true then .copied text else .printed text) ∧
  (∀ file, o.output = some file →
    ((∃ b, file = b ++ ".csv".toList) → e = .exit 0 ∧ out = .csv file text) ∧
    ((∃ b, file = b ++ ".xlsx".toList) → if pandas = true then e = .exit 0 ∧ out = .excel file else e = .raised ∧ out = .none) ∧
    ((¬ ∃ b, file = b ++ ".csv".toList) → (¬ ∃ b, file = b ++ ".xlsx".toList) → e = .exit 1 ∧ out = .none))

theorem ends_iff (t s : Str) : endsWith t s = true ↔ ∃ b, s = b ++ t := by
  unfold endsWith
  rw [List.isPrefixOf_iff_prefix, List.reverse_prefix]
  constructor
  · rintro ⟨b, h⟩; exact ⟨b, h.symm⟩
  · rintro ⟨b, h⟩; exact ⟨b, h.symm⟩

theorem not_both (f : Str) (h1 : ∃ b, f = b ++ ".csv".toList) (h2 : ∃ b, f = b ++ ".xlsx".toList) : False := by
  obtain ⟨a, h1⟩ := h1
  obtain ⟨b, h2⟩ := h2
  have := congrArg List.getLast? (h1.symm.trans h2)
  revert this
  simp

theorem write_whole (showV : V → Str) (pandas : Bool) (o : Opts) (d : List (Str × List V)) (n : Nat) (hne : d ≠ []) (h : ∀ c ∈ d, c.2.length = n) :
    Whole showV pandas o d n (write showV pandas o (.ok d)).2.1 (write showV pandas o (.ok d)).2.2 := by
  haveI := Classical.decEq V
  have ht := Props.RawSteps.C72_csv showV o.separator d n hne h
  unfold Whole write
  simp only
  refine ⟨?_, ?_⟩
  · intro ho
    rw [ho]
    simp only
    rw [ht]
    cases o.clipboard <;> simp
  · intro file ho
    rw [ho]
    simp only
    refine ⟨?_, ?_, ?_⟩
    · intro hc
      rw [if_pos ((ends_iff _ _).mpr hc), ht]
      exact ⟨rfl, rfl⟩
    · intro hx
      rw [if_neg (fun hc => not_both file ((ends_iff _ _).mp hc) hx), if_pos ((ends_iff _ _).mpr hx)]
      cases pandas <;> simp
    · intro hc hx
      rw [if_neg (fun h => hc ((ends_iff _ _).mp h)), if_neg (fun h => hx ((ends_iff _ _).mp h))]
      exact ⟨rfl, rfl⟩

/-- C96: without arguments the script stops with code 1 and leaves nothing; so it does when none of the traces asked for is in the file. -/
theorem C96_refused (showV : V → Str) (pandas : Bool) (o : Opts) (names : List Str) (data : Except Err (List (Str × List V))) :
    (main showV pandas o [] (.ok names) data).2 = (.none, .exit 1) ∧
    ∀ (raw : Str) (ts : List Str), ts ≠ [] → (∀ t ∈ ts, Means names t none) →
      (main showV pandas o (raw :: ts) (.ok names) data).2 = (.none, .exit 1) ∧
      ∀ n ∈ names, Msg.line ("\t<".toList ++ n ++ ">".toList) ∈ (main showV pandas o (raw :: ts) (.ok names) data).1 := by
  refine ⟨rfl, ?_⟩
  intro raw ts hts h
  have h0 : (pickAll o.verbose names ts).1 = [] := by
    rw [(pickAll_eq _ _ _).1, List.flatMap_eq_nil_iff]
    intro t ht
    obtain ⟨r, hr, h1, _⟩ := pick_means o.verbose names t
    have := h t ht
    cases this with
    | missing a b c =>
      cases hr with
      | itself x => exact absurd x a
      | volt _ x => exact absurd x b
      | curr _ _ x => exact absurd x c
      | missing _ _ _ => exact h1
  unfold main
  simp only
  rw [if_neg hts, if_pos h0]
  refine ⟨rfl, ?_⟩
  intro n hn
  unfold available
  simp only [List.mem_append, List.mem_map]
  exact .inr (.inr ⟨n, hn, rfl⟩)

/-- C96: when at least one of the traces asked for is in the file, the script says which traces it reads (every name of the command line that is
in the file, in the order of the command line), warns of the others (quiet mode: and says nothing else before), and writes the file. -/
theorem C96_found (showV : V → Str) (pandas : Bool) (o : Opts) (raw : Str) (names ts : List Str) (data : Except Err (List (Str × List V)))
    (h : ∃ t ∈ ts, ∃ r, Means names t (some r)) :
    ∃ (found : List (Option Str)) (before : List Msg), List.Forall₂ (Means names) ts found ∧
      main showV pandas o (raw :: ts) (.ok names) data =
        (before ++ .reading (found.filterMap id) :: (main showV pandas o [raw] (.ok names) data).1, (main showV pandas o [raw] (.ok names) data).2) ∧
      (∀ t, warning t ∈ before ↔ t ∈ ts ∧ Means names t none) ∧
      (o.verbose = false → before = (ts.filter (fun t => !(names.contains t || names.contains ("V(".toList ++ t ++ ")".toList) ||
        names.contains ("I(".toList ++ t ++ ")".toList)))).map warning) := by
  have hp := fun t => pick_means o.verbose names t
  choose f h1 h2 h3 h4 h5 using hp
  have uniq : ∀ t r, Means names t r → r = f t := by
    intro t r hr
    have hf := h1 t
    generalize f t = q at hf
    cases hr <;> cases hf <;> first | rfl | contradiction
  refine ⟨ts.map f, (pickAll o.verbose names ts).2, ?_, ?_, ?_, ?_⟩
  · rw [List.forall₂_map_right_iff, List.forall₂_same]
    exact fun t _ => h1 t
  · have e1 : (pickAll o.verbose names ts).1 = (ts.map f).filterMap id := by
      rw [(pickAll_eq _ _ _).1, List.filterMap_map]
      clear h
      induction ts with
      | nil => rfl
      | cons t ts ih =>
        rw [List.flatMap_cons, List.filterMap_cons, ih, h2 t]
        show (f t).toList ++ _ = _
        cases hft : f t <;> simp [hft]
    have e2 : (pickAll o.verbose names ts).1 ≠ [] := by
      obtain ⟨t, ht, r, hr⟩ := h
      rw [(pickAll_eq _ _ _).1]
      intro e
      rw [List.flatMap_eq_nil_iff] at e
      have := e t ht
      rw [h2, ← uniq t _ hr] at this
      simp at this
    have hts : ts ≠ [] := by
      rintro rfl
      obtain ⟨t, ht, _⟩ := h
      simp at ht
    have h0 : main showV pandas o [raw] (.ok names) data = write showV pandas o data := by
      unfold main; simp
    rw [h0]
    unfold main
    simp only
    rw [if_neg hts, if_neg e2, e1]
  · intro t
    rw [(pickAll_eq _ _ _).2, List.mem_flatMap]
    constructor
    · rintro ⟨u, hu, hm⟩
      obtain rfl := h4 u t hm
      refine ⟨hu, ?_⟩
      have := (h3 t).mpr hm
      rw [← this]; exact h1 t
    · rintro ⟨hu, hm⟩
      exact ⟨t, hu, (h3 t).mp (uniq t none hm).symm⟩
  · intro hv
    rw [(pickAll_eq _ _ _).2]
    clear h
    induction ts with
    | nil => rfl
    | cons t ts ih =>
      rw [List.flatMap_cons, ih, h5 t hv]
      have hf := h1 t
      generalize hq : f t = q at hf
      cases hf with
      | itself a => simp [a]
      | volt a b =>
        rw [List.filter_cons_of_neg (by simp only [List.contains_iff_mem.mpr b]; simp)]; simp
      | curr a b c =>
        rw [List.filter_cons_of_neg (by simp only [List.contains_iff_mem.mpr c]; simp)]; simp
      | missing a b c =>
        rw [List.filter_cons_of_pos]
        · simp
        · have a' : names.contains t = false := by rw [← Bool.not_eq_true, List.contains_iff_mem]; exact a
          have b' : names.contains ("V(".toList ++ t ++ ")".toList) = false := by rw [← Bool.not_eq_true, List.contains_iff_mem]; exact b
          have c' : names.contains ("I(".toList ++ t ++ ")".toList) = false := by rw [← Bool.not_eq_true, List.contains_iff_mem]; exact c
          rw [a', b', c']; rfl

/-- C96: the output: the table of the whole file, as a text on the screen or on the clipboard, as a CSV file or as an Excel file, by the ending of
the name of the output file; any other ending is refused with code 1. -/
theorem C96_output (showV : V → Str) (pandas : Bool) (o : Opts) (raw : Str) (names : List Str) (d : List (Str × List V)) (n : Nat) (hne : d ≠ [])
    (h : ∀ c ∈ d, c.2.length = n) : ∀ r, main showV pandas o [raw] (.ok names) (.ok d) = r → Whole showV pandas o d n r.2.1 r.2.2 := by
  rintro r rfl
  have h0 : main showV pandas o [raw] (.ok names) (.ok d) = write showV pandas o (.ok d) := by
    unfold main; simp
  rw [h0]
  exact write_whole showV pandas o d n hne h

/-- C96 limit: which traces are asked for does not matter for what is written: as soon as one of them is in the file, all the traces of the file
are written. -/
theorem C96_selection_ignored (showV : V → Str) (pandas : Bool) (o : Opts) (raw : Str) (names ts us : List Str) (data : Except Err (List (Str × List V)))
    (h1 : ∃ t ∈ ts, ∃ r, Means names t (some r)) (h2 : ∃ t ∈ us, ∃ r, Means names t (some r)) :
    (main showV pandas o (raw :: ts) (.ok names) data).2 = (main showV pandas o (raw :: us) (.ok names) data).2 := by
  obtain ⟨_, _, _, e1, _⟩ := C96_found showV pandas o raw names ts data h1
  obtain ⟨_, _, _, e2, _⟩ := C96_found showV pandas o raw names us data h2
  rw [e1, e2]

/-! ### Samples -/

def opts (output : Option String) : Opts := ⟨output.map String.toList, false, false, ";".toList⟩

def tr : List Str := ["time", "V(a)", "I(R1)"].map String.toList

def cols : List (Str × List Int) := [("time".toList, [0, 1]), ("V(a)".toList, [5, -6]), ("I(R1)".toList, [7, 8])]

def run (output : Option String) (args : List String) : List Msg × Out × End := main Model.PyStr.showInt false (opts output) (args.map String.toList) (.ok tr) (.ok cols)

/-- C96 sample: names without V() and I(), a name that is not there, the whole table although one trace was asked for, the endings. -/
theorem C96_sample :
    (run none ["x.raw", "R1", "q", "a"]).1 = [warning "q".toList, .reading (["I(R1)", "V(a)"].map String.toList)] ∧
    (run none ["x.raw", "a"]).2 = (.printed "time;V(a);I(R1)\n0;5;7\n1;-6;8\n".toList, .exit 0) ∧
    (run (some "o.csv") ["x.raw"]).2 = (.csv "o.csv".toList "time;V(a);I(R1)\n0;5;7\n1;-6;8\n".toList, .exit 0) ∧
    (run (some "o.txt") ["x.raw"]).2 = (.none, .exit 1) ∧ (run (some "o.xlsx") ["x.raw"]).2 = (.none, .raised) ∧
    (run none ["x.raw", "b"]).2 = (.none, .exit 1) := by
  refine ⟨?_, ?_, ?_, ?_, ?_, ?_⟩ <;> decide +kernel

/-- C96 sample: the hypotheses. -/
theorem C96_applies : (∃ t ∈ ["R1".toList, "q".toList], ∃ r, Means tr t (some r)) ∧ Means tr "q".toList none ∧ cols ≠ [] ∧ (∀ c ∈ cols, c.2.length = 2) := by
  refine ⟨⟨"R1".toList, by simp, _, .curr (by decide +kernel) (by decide +kernel) (by decide +kernel)⟩,
    .missing (by decide +kernel) (by decide +kernel) (by decide +kernel), by simp [cols], by simp [cols]⟩

/-- C96 limit: a name in lower case is another name, and a name is never completed inside. -/
theorem C96_limits : (run none ["x.raw", "v(a)"]).2 = (.none, .exit 1) ∧ (run none ["x.raw", "A"]).2 = (.none, .exit 1) ∧
    (run (some "O.CSV") ["x.raw"]).2 = (.none, .exit 1) := by
  refine ⟨?_, ?_, ?_⟩ <;> decide +kernel

end Props.RawConvert
