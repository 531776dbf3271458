import Verif.Spec.RunFiles
import Verif.Lemmas.FileName
import Mathlib.Tactic.SplitIfs
import Mathlib.Tactic.Tauto
/-
C84: the files of the runs of a SimRunner: where they are put and which ones cleanup_files deletes.
-/
namespace Props.Cleanup
open Model.Cleanup Spec.RunFiles
open Model.Runner (splitExt runFileName)
open Lemmas.FileName

/-- A path is deleted by `cleanTask`, or keeps its content. -/
def Hit (t : Task) (p : Path) : Prop :=
  p = t.netlist ∨ t.log = some p ∨ p = withSuffix t.netlist ".exe.log".toList ∨ t.raw = some p ∨
  ((suffix t.netlist = ".net".toList ∨ suffix t.netlist = ".asc".toList) ∧
    (p = withSuffix t.netlist ".log.raw".toList ∨ p = withSuffix t.netlist ".op.raw".toList ∨ p = withSuffix t.netlist ".db".toList ∨
      (suffix t.netlist = ".asc".toList ∧ p = withSuffix t.netlist ".net".toList)))

theorem delete_eq {C : Type} (p q : Path) (fs : FS C) : (q = p → delete p fs q = none) ∧ (q ≠ p → delete p fs q = fs q) := by
  unfold delete
  constructor
  · intro h; rw [if_pos h]
  · intro h; rw [if_neg h]

theorem deleteOpt_eq {C : Type} (p : Option Path) (q : Path) (fs : FS C) :
    (p = some q → deleteOpt p fs q = none) ∧ (p ≠ some q → deleteOpt p fs q = fs q) := by
  cases p with
  | none => exact ⟨fun h => (by cases h), fun _ => rfl⟩
  | some p =>
    constructor
    · intro h; injection h with h; exact (delete_eq p q fs).1 h.symm
    · intro h; exact (delete_eq p q fs).2 (fun hh => h (by rw [hh]))

theorem delete_none {C : Type} (p q : Path) (fs : FS C) (h : fs q = none) : delete p fs q = none := by
  unfold delete
  split_ifs
  · rfl
  · exact h

theorem deleteOpt_none {C : Type} (p : Option Path) (q : Path) (fs : FS C) (h : fs q = none) : deleteOpt p fs q = none := by
  cases p with
  | none => exact h
  | some p => exact delete_none p q fs h

theorem clean_hit {C : Type} (t : Task) (p : Path) (fs : FS C) : (Hit t p → cleanTask fs t p = none) ∧ (¬ Hit t p → cleanTask fs t p = fs p) := by
  unfold cleanTask
  dsimp only
  constructor
  · intro h
    unfold Hit at h
    rcases h with h | h | h | h | ⟨h1, h⟩
    · have h0 := (delete_eq t.netlist p fs).1 h
      have h2 := delete_none (withSuffix t.netlist ".exe.log".toList) p _ (deleteOpt_none t.log p _ h0)
      have h3 := deleteOpt_none t.raw p _ h2
      split_ifs
      · exact delete_none _ _ _ (delete_none _ _ _ (delete_none _ _ _ (delete_none _ _ _ h3)))
      · exact delete_none _ _ _ (delete_none _ _ _ (delete_none _ _ _ h3))
      · exact h3
    · have h0 := (deleteOpt_eq t.log p (delete t.netlist fs)).1 h
      have h3 := deleteOpt_none t.raw p _ (delete_none (withSuffix t.netlist ".exe.log".toList) p _ h0)
      split_ifs
      · exact delete_none _ _ _ (delete_none _ _ _ (delete_none _ _ _ (delete_none _ _ _ h3)))
      · exact delete_none _ _ _ (delete_none _ _ _ (delete_none _ _ _ h3))
      · exact h3
    · have h0 := (delete_eq (withSuffix t.netlist ".exe.log".toList) p (deleteOpt t.log (delete t.netlist fs))).1 h
      have h3 := deleteOpt_none t.raw p _ h0
      split_ifs
      · exact delete_none _ _ _ (delete_none _ _ _ (delete_none _ _ _ (delete_none _ _ _ h3)))
      · exact delete_none _ _ _ (delete_none _ _ _ (delete_none _ _ _ h3))
      · exact h3
    · have h3 := (deleteOpt_eq t.raw p (delete (withSuffix t.netlist ".exe.log".toList) (deleteOpt t.log (delete t.netlist fs)))).1 h
      split_ifs
      · exact delete_none _ _ _ (delete_none _ _ _ (delete_none _ _ _ (delete_none _ _ _ h3)))
      · exact delete_none _ _ _ (delete_none _ _ _ (delete_none _ _ _ h3))
      · exact h3
    · rw [if_pos h1]
      generalize deleteOpt t.raw (delete (withSuffix t.netlist ".exe.log".toList) (deleteOpt t.log (delete t.netlist fs))) = fs1
      rcases h with h | h | h | ⟨h2, h⟩
      · have h3 := delete_none (withSuffix t.netlist ".db".toList) p _ (delete_none (withSuffix t.netlist ".op.raw".toList) p _ ((delete_eq _ p fs1).1 h))
        split_ifs
        · exact delete_none _ _ _ h3
        · exact h3
      · have h3 := delete_none (withSuffix t.netlist ".db".toList) p _ ((delete_eq _ p (delete (withSuffix t.netlist ".log.raw".toList) fs1)).1 h)
        split_ifs
        · exact delete_none _ _ _ h3
        · exact h3
      · have h3 := (delete_eq _ p (delete (withSuffix t.netlist ".op.raw".toList) (delete (withSuffix t.netlist ".log.raw".toList) fs1))).1 h
        split_ifs
        · exact delete_none _ _ _ h3
        · exact h3
      · rw [if_pos h2]
        exact (delete_eq _ p _).1 h
  · intro h
    unfold Hit at h
    simp only [not_or, not_and] at h
    obtain ⟨a1, a2, a3, a4, a5⟩ := h
    have h3 : deleteOpt t.raw (delete (withSuffix t.netlist ".exe.log".toList) (deleteOpt t.log (delete t.netlist fs))) p = fs p := by
      rw [(deleteOpt_eq _ _ _).2 a4, (delete_eq _ _ _).2 a3, (deleteOpt_eq _ _ _).2 a2, (delete_eq _ _ _).2 a1]
    by_cases hc : suffix t.netlist = ".net".toList ∨ suffix t.netlist = ".asc".toList
    · obtain ⟨b1, b2, b3, b4⟩ := a5 hc
      rw [if_pos hc]
      split_ifs with hd
      · rw [(delete_eq _ _ _).2 (b4 hd), (delete_eq _ _ _).2 b3, (delete_eq _ _ _).2 b2, (delete_eq _ _ _).2 b1, h3]
      · rw [(delete_eq _ _ _).2 b3, (delete_eq _ _ _).2 b2, (delete_eq _ _ _).2 b1, h3]
    · rw [if_neg hc, h3]

theorem clean_none {C : Type} (t : Task) (p : Path) (fs : FS C) (h : fs p = none) : cleanTask fs t p = none := by
  by_cases hh : Hit t p
  · exact (clean_hit t p fs).1 hh
  · rw [(clean_hit t p fs).2 hh]; exact h

theorem cleanup_none {C : Type} : ∀ (ts : List Task) (fs : FS C) (p : Path), fs p = none → cleanup ts fs p = none := by
  intro ts
  induction ts with
  | nil => intro fs p h; exact h
  | cons t ts ih => intro fs p h; exact ih _ p (clean_none t p fs h)

theorem cleanup_hit {C : Type} : ∀ (ts : List Task) (fs : FS C) (p : Path),
    ((∃ t ∈ ts, Hit t p) → cleanup ts fs p = none) ∧ ((¬ ∃ t ∈ ts, Hit t p) → cleanup ts fs p = fs p) := by
  intro ts
  induction ts with
  | nil => intro fs p; exact ⟨fun ⟨t, ht, _⟩ => (by cases ht), fun _ => rfl⟩
  | cons t ts ih =>
    intro fs p
    constructor
    · rintro ⟨u, hu, hh⟩
      rcases List.mem_cons.mp hu with rfl | hu
      · exact cleanup_none ts _ p ((clean_hit u p fs).1 hh)
      · exact (ih (cleanTask fs t) p).1 ⟨u, hu, hh⟩
    · intro hn
      have h1 := (ih (cleanTask fs t) p).2 (fun ⟨u, hu, hh⟩ => hn ⟨u, List.mem_cons_of_mem _ hu, hh⟩)
      show cleanup ts (cleanTask fs t) p = fs p
      rw [h1]
      exact (clean_hit t p fs).2 (fun hh => hn ⟨t, List.mem_cons_self, hh⟩)

theorem withSuffix_beside (n : Path) (e : List Char) : withSuffix n e = beside n e := rfl

theorem suffix_iff (n : Path) (e : List Char) : suffix n = e ↔ HasExt n e := Iff.rfl

/-- Replacing an extension that was just put. -/
theorem beside_log (n : Path) (h : (splitExt n.name).1 ≠ []) (e : List Char) : withSuffix (withSuffix n ".log".toList) e = beside n e := by
  unfold withSuffix beside
  dsimp only
  rw [show (splitExt n.name).1 ++ ".log".toList = (splitExt n.name).1 ++ '.' :: "log".toList from rfl, splitExt_append _ _ h (by decide) (by decide)]

theorem stem_ne (p : Path) (h : p.name ≠ []) : (splitExt p.name).1 ≠ [] := by
  intro hc
  obtain ⟨h1, h2⟩ := splitExt_spec p.name
  rcases h2 with ⟨h2, _⟩ | ⟨e, _, _, _, h2⟩
  · rw [hc, h2] at h1; exact h h1
  · exact h2 hc

theorem hit_cleaned (sim : Model.CmdLine.Sim) (n : Path) (hn : n.name ≠ []) (e : Ended) (p : Path) : Hit (taskOf sim n e) p ↔ Cleaned sim n e p := by
  have hf := beside_log n (stem_ne n hn) ".fail".toList
  have hnet : (taskOf sim n e).netlist = n := by
    cases e with
    | failed b => cases b <;> rfl
    | _ => rfl
  constructor
  · unfold Hit
    rw [hnet]
    rintro (h | h | h | h | ⟨h1, h⟩)
    · rw [h]; exact .netlist
    · cases e with
      | ok => injection h with h; rw [← h]; exact .log (Or.inl rfl)
      | running => cases h
      | failed b =>
        cases b with
        | true => injection h with h; rw [← h, hf]; exact .fail rfl
        | false => injection h with h; rw [← h]; exact .log (Or.inr rfl)
    · rw [h]; exact .exeLog
    · cases e with
      | ok => injection h with h; rw [← h]; exact .raw rfl
      | running => cases h
      | failed b => cases b <;> cases h
    · rcases h with h | h | h | ⟨h2, h⟩
      · rw [h]; exact .extra _ (by simp) h1
      · rw [h]; exact .extra _ (by simp) h1
      · rw [h]; exact .extra _ (by simp) h1
      · rw [h]; exact .net h2
  · intro h
    unfold Hit
    rw [hnet]
    cases h with
    | netlist => exact Or.inl rfl
    | exeLog => exact Or.inr (Or.inr (Or.inl rfl))
    | log h => rcases h with rfl | rfl <;> exact Or.inr (Or.inl rfl)
    | fail h => subst h; exact Or.inr (Or.inl (by rw [← hf]; rfl))
    | raw h => subst h; exact Or.inr (Or.inr (Or.inr (Or.inl rfl)))
    | extra x hx h =>
      refine Or.inr (Or.inr (Or.inr (Or.inr ⟨h, ?_⟩)))
      simp only [List.mem_cons, List.not_mem_nil, or_false] at hx
      rcases hx with rfl | rfl | rfl
      · exact Or.inl rfl
      · exact Or.inr (Or.inl rfl)
      · exact Or.inr (Or.inr (Or.inl rfl))
    | net h => exact Or.inr (Or.inr (Or.inr (Or.inr ⟨Or.inr h, Or.inr (Or.inr (Or.inr ⟨h, rfl⟩))⟩)))

/-- C84: `cleanup_files` deletes exactly the files listed for the completed runs, and no other file changes. -/
theorem C84_cleanup_exact {C : Type} (sim : Model.CmdLine.Sim) (runs : List (Path × Ended)) (hn : ∀ r ∈ runs, r.1.name ≠ []) (fs : FS C) (p : Path) :
    ((∃ r ∈ runs, Cleaned sim r.1 r.2 p) → cleanup (runs.map (fun r => taskOf sim r.1 r.2)) fs p = none) ∧
    ((¬ ∃ r ∈ runs, Cleaned sim r.1 r.2 p) → cleanup (runs.map (fun r => taskOf sim r.1 r.2)) fs p = fs p) := by
  have h := cleanup_hit (runs.map (fun r => taskOf sim r.1 r.2)) fs p
  have he : (∃ t ∈ runs.map (fun r => taskOf sim r.1 r.2), Hit t p) ↔ ∃ r ∈ runs, Cleaned sim r.1 r.2 p := by
    constructor
    · rintro ⟨t, ht, hh⟩
      obtain ⟨r, hr, rfl⟩ := List.mem_map.mp ht
      exact ⟨r, hr, (hit_cleaned sim r.1 (hn r hr) r.2 p).mp hh⟩
    · rintro ⟨r, hr, hh⟩
      exact ⟨_, List.mem_map.mpr ⟨r, hr, rfl⟩, (hit_cleaned sim r.1 (hn r hr) r.2 p).mpr hh⟩
  rw [he] at h
  exact h

/-! ### Names of runs -/

/-- The text after the last underscore. -/
def tailU (l : List Char) : List Char := (l.reverse.takeWhile (fun c : Char => decide (c ≠ '_'))).reverse

theorem tailU_app (s t : List Char) (h : '_' ∉ t) : tailU (s ++ '_' :: t) = t := by
  unfold tailU
  rw [show (s ++ '_' :: t).reverse = t.reverse ++ '_' :: s.reverse by simp,
    takeWhile_append_all _ _ (fun c hc => by simp only [decide_eq_true_eq]; rintro rfl; exact h (by simpa using hc))]
  simp

theorem tailU_sub (s t : List Char) (h : '_' ∈ t) : ∃ u, t = u ++ tailU (s ++ t) := by
  obtain ⟨a, b, hab, hb⟩ : ∃ a b, t = a ++ '_' :: b ∧ '_' ∉ b := by
    have : '_' ∈ t.reverse := by simpa using h
    obtain ⟨x, y, hxy, hx⟩ := List.eq_append_cons_of_mem this
    refine ⟨y.reverse, x.reverse, ?_, by simpa using hx⟩
    have := congrArg List.reverse hxy
    simpa using this
  refine ⟨a ++ ['_'], ?_⟩
  rw [hab, ← List.append_assoc, tailU_app _ _ hb]
  simp

theorem digits_clean (n : Nat) : '_' ∉ Nat.toDigits 10 n ∧ '.' ∉ Nat.toDigits 10 n :=
  ⟨fun h => (digit_ne_dot (Nat.isDigit_of_mem_toDigits (by omega) (by omega) h)).2 rfl, digits_no_dot n⟩

theorem digits_inj {m n : Nat} (h : Nat.toDigits 10 m = Nat.toDigits 10 n) : m = n := stem_inj [] [] m n (by rw [h])

theorem before_dot (m n : Nat) (e f : List Char) (he : e = [] ∨ ∃ w, e = '.' :: w) (hf : f = [] ∨ ∃ w, f = '.' :: w)
    (h : Nat.toDigits 10 m ++ e = Nat.toDigits 10 n ++ f) : m = n := by
  have key : ∀ (k : Nat) (x : List Char), (x = [] ∨ ∃ w, x = '.' :: w) →
      (Nat.toDigits 10 k ++ x).takeWhile (fun c : Char => decide (c ≠ '.')) = Nat.toDigits 10 k := by
    intro k x hx
    rw [takeWhile_append_all _ _ (fun c hc => by simp only [decide_eq_true_eq]; rintro rfl; exact (digits_clean k).2 hc)]
    rcases hx with rfl | ⟨w, rfl⟩ <;> simp
  have := congrArg (List.takeWhile (fun c : Char => decide (c ≠ '.'))) h
  rw [key m e he, key n f hf] at this
  exact digits_inj this

/-- The default name: the run's stem, followed by nothing or by a dot and a word without dots. -/
theorem run_name (c : List Char) (n : Nat) : ∃ e, runFileName c n = runStem c n ++ e ∧ (e = [] ∨ ∃ w, e = '.' :: w ∧ '.' ∉ w) := by
  unfold runFileName runStem
  obtain ⟨h1, h2⟩ := splitExt_spec c
  dsimp only at h1 h2 ⊢
  split_ifs with hq
  · exact ⟨['.', 'n', 'e', 't'], by simp, Or.inr ⟨_, rfl, by decide⟩⟩
  · refine ⟨(splitExt c).2, by simp, ?_⟩
    rcases h2 with ⟨h2, _⟩ | ⟨w, h2, _, h3, _⟩
    · exact Or.inl h2
    · exact Or.inr ⟨w, h2, h3⟩

theorem mixed (c d : List Char) (m n : Nat) (e w : List Char) (he : e = [] ∨ ∃ w, e = '.' :: w ∧ '.' ∉ w) (hw : '_' ∉ w)
    (h : runStem c m ++ e = runStem d n ++ '.' :: w) : m = n := by
  have hr : tailU (runStem d n ++ '.' :: w) = Nat.toDigits 10 n ++ '.' :: w := by
    unfold runStem
    rw [List.append_assoc, List.cons_append]
    apply tailU_app
    simp only [List.mem_append, List.mem_cons, not_or]
    exact ⟨(digits_clean n).1, by decide, hw⟩
  by_cases hu : '_' ∈ e
  · obtain ⟨u, hu2⟩ := tailU_sub (runStem c m) e hu
    rw [h, hr] at hu2
    exfalso
    rcases he with rfl | ⟨v, rfl, hv⟩
    · cases hu
    · cases u with
      | nil =>
        have hd : ∃ x xs, Nat.toDigits 10 n = x :: xs := by
          cases hx : Nat.toDigits 10 n with
          | nil => exact absurd hx (by simp)
          | cons x xs => exact ⟨x, xs, rfl⟩
        obtain ⟨x, xs, hx⟩ := hd
        rw [hx] at hu2
        simp only [List.nil_append, List.cons_append, List.cons.injEq] at hu2
        exact (digits_clean n).2 (by rw [hx, ← hu2.1]; exact List.mem_cons_self)
      | cons y ys =>
        simp only [List.cons_append, List.cons.injEq] at hu2
        apply hv
        rw [hu2.2]
        simp
  · have hl : tailU (runStem c m ++ e) = Nat.toDigits 10 m ++ e := by
      unfold runStem
      rw [List.append_assoc, List.cons_append]
      apply tailU_app
      simp only [List.mem_append, not_or]
      exact ⟨(digits_clean m).1, hu⟩
    rw [h, hr] at hl
    exact (before_dot n m _ _ (Or.inr ⟨w, rfl⟩) (he.imp id (fun ⟨w, h, _⟩ => ⟨w, h⟩)) hl).symm

/-- C84: the files of runs with different numbers have different names, whatever the circuits are called (names ending in a dot apart). -/
theorem C84_runs_apart (c d : List Char) (m n : Nat) (hc : ∀ b, c ≠ b ++ ['.']) (hd : ∀ b, d ≠ b ++ ['.']) (f : List Char)
    (h1 : FileOf c m f) (h2 : FileOf d n f) : m = n := by
  obtain ⟨e, he, hec⟩ := run_name c m
  obtain ⟨g, hg, hgc⟩ := run_name d n
  cases h1 with
  | netlist =>
    generalize hf : runFileName c m = f at h2
    cases h2 with
    | netlist =>
      have h3 := splitExt_runFileName c m hc
      rw [hf, splitExt_runFileName d n hd] at h3
      exact (stem_inj _ _ _ _ h3).symm
    | beside w hw => exact mixed c d m n e w hec hw (by rw [← he, hf])
  | beside v hv =>
    generalize hf : runStem c m ++ '.' :: v = f at h2
    cases h2 with
    | netlist => exact (mixed d c n m g v hgc hv (by rw [← hg, hf])).symm
    | beside w hw =>
      have hl : ∀ (a : List Char) (k : Nat) (x : List Char), '_' ∉ x → tailU (runStem a k ++ '.' :: x) = Nat.toDigits 10 k ++ '.' :: x := by
        intro a k x hx
        unfold runStem
        rw [List.append_assoc, List.cons_append]
        apply tailU_app
        simp only [List.mem_append, List.mem_cons, not_or]
        exact ⟨(digits_clean k).1, by decide, hx⟩
      have h3 := hl c m v hv
      rw [hf, hl d n w hw] at h3
      exact (before_dot n m _ _ (Or.inr ⟨_, rfl⟩) (Or.inr ⟨_, rfl⟩) h3).symm

/-- C84: the file of the circuit itself is not among the files of its runs. -/
theorem C84_not_the_original (c : List Char) (n : Nat) (f : List Char) (h : FileOf c n f) : f ≠ c := by
  obtain ⟨h1, h2⟩ := splitExt_spec c
  have key : ∀ t : List Char, c ≠ (splitExt c).1 ++ '_' :: t := by
    intro t h
    have h3 : (splitExt c).2 = '_' :: t := List.append_cancel_left (h1.symm.trans h)
    rcases h2 with ⟨h2, _⟩ | ⟨e, h2, _⟩
    · rw [h3] at h2; cases h2
    · rw [h3] at h2; injection h2 with h2; exact absurd h2 (by decide)
  cases h with
  | netlist =>
    obtain ⟨e, he, _⟩ := run_name c n
    intro hh
    have h3 := hh.symm.trans he
    unfold runStem at h3
    rw [List.append_assoc, List.cons_append] at h3
    exact key _ h3
  | beside w _ =>
    intro hh
    apply key (Nat.toDigits 10 n ++ '.' :: w)
    unfold runStem at hh
    rw [List.append_assoc, List.cons_append] at hh
    exact hh.symm

/-! ### Placement -/

/-- The name part of where a run with the default name is put. -/
theorem C84_placement (out : Option Folder) (n : Nat) (c : Path) :
    (∃ p, runFile out n (.editor c) .default = some p ∧ p.name = runFileName c.name n ∧
      ∀ f, (out = some f → p.root = f.root ∧ p.dir = f.parts) ∧ (out = none → p.root = false ∧ p.dir = [])) ∧
    (∃ p, runFile out n (.file c) .default = some p ∧ p.name = runFileName c.name n ∧
      ∀ f, (out = some f → p.root = f.root ∧ p.dir = f.parts) ∧ (out = none → p.root = c.root ∧ p.dir = c.dir)) := by
  cases out with
  | none => exact ⟨⟨_, rfl, rfl, fun f => ⟨fun h => (by cases h), fun _ => ⟨rfl, rfl⟩⟩⟩,
      ⟨_, rfl, rfl, fun f => ⟨fun h => (by cases h), fun _ => ⟨rfl, by simp [toOutputFolder, join]⟩⟩⟩⟩
  | some g =>
    refine ⟨⟨_, rfl, rfl, fun f => ⟨fun h => ?_, fun h => (by cases h)⟩⟩, ⟨_, rfl, rfl, fun f => ⟨fun h => ?_, fun h => (by cases h)⟩⟩⟩
    · injection h with h; rw [h]; exact ⟨rfl, rfl⟩
    · injection h with h; rw [h]; exact ⟨rfl, by simp [toOutputFolder, join]⟩

/-! ### Sessions -/

def Source.path : Source → Path
  | .editor c => c
  | .file p => p

/-- A run that was started: the name of its circuit file, its number, and its netlist file. -/
structure Issued where
  circuit : List Char
  number : Nat
  netlist : Path

/-- What a runner with this output folder and its simulations may do to the files, when the default names are used: `Session out fs0 fs k issued completed`
says that `fs` can be the files, `issued` the runs started and `completed` the completed list after `k` runs, when the files were `fs0` at the beginning.
A run that was started may change its own files at any moment, also after it is completed. -/
inductive Session {C : Type} (sim : Model.CmdLine.Sim) (out : Option Folder) (fs0 : FS C) : FS C → Nat → List Issued → List (Issued × Ended) → Prop
  | start : Session sim out fs0 fs0 0 [] []
  | run {fs : FS C} {k : Nat} {issued : List Issued} {completed : List (Issued × Ended)} (src : Source) (p : Path) (content : C) :
      Session sim out fs0 fs k issued completed → runFile out (k + 1) src .default = some p → (∀ b, (Source.path src).name ≠ b ++ ['.']) →
      Session sim out fs0 (fun q => if q = p then some content else fs q) (k + 1) (⟨(Source.path src).name, k + 1, p⟩ :: issued) completed
  | write {fs fs' : FS C} {k : Nat} {issued : List Issued} {completed : List (Issued × Ended)} (r : Issued) :
      Session sim out fs0 fs k issued completed → r ∈ issued →
      (∀ q, fs' q ≠ fs q → q.root = r.netlist.root ∧ q.dir = r.netlist.dir ∧ FileOf r.circuit r.number q.name) →
      Session sim out fs0 fs' k issued completed
  | complete {fs : FS C} {k : Nat} {issued : List Issued} {completed : List (Issued × Ended)} (r : Issued) (e : Ended) :
      Session sim out fs0 fs k issued completed → r ∈ issued → Session sim out fs0 fs k issued (completed ++ [(r, e)])
  | cleanup {fs : FS C} {k : Nat} {issued : List Issued} {completed : List (Issued × Ended)} :
      Session sim out fs0 fs k issued completed →
      Session sim out fs0 (cleanup (completed.map (fun r => taskOf sim r.1.netlist r.2)) fs) k issued completed

/-- A default-named run. -/
structure Good (out : Option Folder) (k : Nat) (r : Issued) : Prop where
  name : r.netlist.name = runFileName r.circuit r.number
  nodot : ∀ b, r.circuit ≠ b ++ ['.']
  upto : 1 ≤ r.number ∧ r.number ≤ k
  folder : ∀ f, out = some f → r.netlist.root = f.root ∧ r.netlist.dir = f.parts

theorem run_good (out : Option Folder) (k : Nat) (src : Source) (p : Path) (h : runFile out (k + 1) src .default = some p)
    (hd : ∀ b, (Source.path src).name ≠ b ++ ['.']) : Good out (k + 1) ⟨(Source.path src).name, k + 1, p⟩ := by
  cases src with
  | editor c =>
    obtain ⟨⟨q, hq, h1, h2⟩, _⟩ := C84_placement out (k + 1) c
    rw [hq] at h; injection h with h; subst h
    exact ⟨h1, hd, ⟨by simp, by simp⟩, fun f hf => (h2 f).1 hf⟩
  | file c =>
    obtain ⟨_, q, hq, h1, h2⟩ := C84_placement out (k + 1) c
    rw [hq] at h; injection h with h; subst h
    exact ⟨h1, hd, ⟨by simp, by simp⟩, fun f hf => (h2 f).1 hf⟩

/-- What is deleted for a default-named run are files of this run, beside its netlist. -/
theorem cleaned_of {sim : Model.CmdLine.Sim} {out : Option Folder} {k : Nat} {r : Issued} (h : Good out k r) {e : Ended} {p : Path} (hp : Cleaned sim r.netlist e p) :
    p.root = r.netlist.root ∧ p.dir = r.netlist.dir ∧ FileOf r.circuit r.number p.name := by
  have hb : ∀ x : List Char, '_' ∉ x → FileOf r.circuit r.number (beside r.netlist ('.' :: x)).name := by
    intro x hx
    have : (beside r.netlist ('.' :: x)).name = runStem r.circuit r.number ++ '.' :: x := by
      unfold beside runStem
      dsimp only
      rw [h.name, splitExt_runFileName _ _ h.nodot]
    rw [this]
    exact .beside x hx
  cases hp with
  | netlist => exact ⟨rfl, rfl, by rw [h.name]; exact .netlist⟩
  | exeLog => exact ⟨rfl, rfl, hb "exe.log".toList (by decide)⟩
  | log _ => exact ⟨rfl, rfl, hb "log".toList (by decide)⟩
  | fail _ => exact ⟨rfl, rfl, hb "fail".toList (by decide)⟩
  | raw _ =>
    refine ⟨rfl, rfl, ?_⟩
    cases sim with
    | qspice => exact hb "qraw".toList (by decide)
    | _ => exact hb "raw".toList (by decide)
  | extra x hx _ =>
    refine ⟨rfl, rfl, ?_⟩
    simp only [List.mem_cons, List.not_mem_nil, or_false] at hx
    rcases hx with rfl | rfl | rfl
    · exact hb "log.raw".toList (by decide)
    · exact hb "op.raw".toList (by decide)
    · exact hb "db".toList (by decide)
  | net _ => exact ⟨rfl, rfl, hb "net".toList (by decide)⟩

theorem good_nonempty {out : Option Folder} {k : Nat} {r : Issued} (h : Good out k r) : r.netlist.name ≠ [] := by
  rw [h.name]
  unfold runFileName
  simp

theorem good_mono {out : Option Folder} {k l : Nat} {r : Issued} (h : Good out k r) (hk : k ≤ l) : Good out l r :=
  ⟨h.name, h.nodot, ⟨h.upto.1, Nat.le_trans h.upto.2 hk⟩, h.folder⟩

theorem session_inv {C : Type} {sim : Model.CmdLine.Sim} {out : Option Folder} {fs0 fs : FS C} {k : Nat} {issued : List Issued} {completed : List (Issued × Ended)}
    (h : Session sim out fs0 fs k issued completed) :
    (∀ r ∈ issued, Good out k r) ∧ (∀ r ∈ completed, r.1 ∈ issued) ∧
    ∀ q, fs q ≠ fs0 q → ∃ r ∈ issued, q.root = r.netlist.root ∧ q.dir = r.netlist.dir ∧ FileOf r.circuit r.number q.name := by
  induction h with
  | start => exact ⟨fun r h => (by cases h), fun r h => (by cases h), fun q h => absurd rfl h⟩
  | @run fs k issued completed src p content hs hp hd ih =>
    obtain ⟨i1, i2, i3⟩ := ih
    have hg := run_good out k src p hp hd
    refine ⟨?_, fun r hr => List.mem_cons_of_mem _ (i2 r hr), ?_⟩
    · intro r hr
      rcases List.mem_cons.mp hr with rfl | hr
      · exact hg
      · exact good_mono (i1 r hr) (by omega)
    · intro q hq
      by_cases hqp : q = p
      · refine ⟨_, List.mem_cons_self, by rw [hqp], by rw [hqp], ?_⟩
        rw [hqp]
        have := hg.name
        dsimp only at this
        rw [this]
        exact .netlist
      · dsimp only at hq
        rw [if_neg hqp] at hq
        obtain ⟨r, hr, h⟩ := i3 q hq
        exact ⟨r, List.mem_cons_of_mem _ hr, h⟩
  | @write fs fs' k issued completed r hs hr hw ih =>
    obtain ⟨i1, i2, i3⟩ := ih
    refine ⟨i1, i2, ?_⟩
    intro q hq
    by_cases hc : fs' q = fs q
    · rw [hc] at hq; exact i3 q hq
    · exact ⟨r, hr, hw q hc⟩
  | @complete fs k issued completed r e hs hr ih =>
    obtain ⟨i1, i2, i3⟩ := ih
    refine ⟨i1, ?_, i3⟩
    intro x hx
    rcases List.mem_append.mp hx with hx | hx
    · exact i2 x hx
    · rw [List.mem_singleton] at hx; rw [hx]; exact hr
  | @cleanup fs k issued completed hs ih =>
    obtain ⟨i1, i2, i3⟩ := ih
    refine ⟨i1, i2, ?_⟩
    intro q hq
    have hne : ∀ r ∈ completed.map (fun r => (r.1.netlist, r.2)), r.1.name ≠ [] := by
      intro r hr
      obtain ⟨x, hx, rfl⟩ := List.mem_map.mp hr
      exact good_nonempty (i1 _ (i2 x hx))
    have hex := C84_cleanup_exact sim _ hne fs q
    rw [List.map_map] at hex
    by_cases hc : ∃ r ∈ completed.map (fun r => (r.1.netlist, r.2)), Cleaned sim r.1 r.2 q
    · obtain ⟨r, hr, hcl⟩ := hc
      obtain ⟨x, hx, rfl⟩ := List.mem_map.mp hr
      exact ⟨x.1, i2 x hx, cleaned_of (i1 _ (i2 x hx)) hcl⟩
    · have h4 := hex.2 hc
      apply i3 q
      intro hh
      exact hq (h4.trans hh)

/-- C84: whatever a runner does with default names, in whatever order runs start, write their files, end and are cleaned up: the only files that are created, changed or
deleted are those of its runs - with an output folder they all lie in it - and so every other file of the user keeps its content. -/
theorem C84_others_untouched {C : Type} {sim : Model.CmdLine.Sim} {out : Option Folder} {fs0 fs : FS C} {k : Nat} {issued : List Issued} {completed : List (Issued × Ended)}
    (h : Session sim out fs0 fs k issued completed) (q : Path)
    (hq : ∀ c n, 1 ≤ n → n ≤ k → ¬ FileOf c n q.name) : fs q = fs0 q := by
  obtain ⟨i1, _, i3⟩ := session_inv h
  by_cases hc : fs q = fs0 q
  · exact hc
  · obtain ⟨r, hr, _, _, hf⟩ := i3 q hc
    exact absurd hf (hq _ _ (i1 r hr).upto.1 (i1 r hr).upto.2)

theorem C84_stays_in_the_folder {C : Type} {sim : Model.CmdLine.Sim} {f : Folder} {fs0 fs : FS C} {k : Nat} {issued : List Issued} {completed : List (Issued × Ended)}
    (h : Session sim (some f) fs0 fs k issued completed) (q : Path) (hq : ¬ (q.root = f.root ∧ q.dir = f.parts)) : fs q = fs0 q := by
  obtain ⟨i1, _, i3⟩ := session_inv h
  by_cases hc : fs q = fs0 q
  · exact hc
  · obtain ⟨r, hr, h1, h2, _⟩ := i3 q hc
    obtain ⟨g1, g2⟩ := (i1 r hr).folder f rfl
    exact absurd ⟨h1.trans g1, h2.trans g2⟩ hq

/-- C84: `cleanup_files` spares the files of every run that is not completed. -/
theorem C84_active_spared {C : Type} {sim : Model.CmdLine.Sim} {out : Option Folder} {fs0 fs : FS C} {k : Nat} {issued : List Issued} {completed : List (Issued × Ended)}
    (h : Session sim out fs0 fs k issued completed) (r : Issued) (hr : r ∈ issued) (hn : ∀ x ∈ completed, x.1.number ≠ r.number) (q : Path)
    (hq : FileOf r.circuit r.number q.name) : cleanup (completed.map (fun r => taskOf sim r.1.netlist r.2)) fs q = fs q := by
  obtain ⟨i1, i2, _⟩ := session_inv h
  have hne : ∀ r ∈ completed.map (fun r => (r.1.netlist, r.2)), r.1.name ≠ [] := by
    intro r hr
    obtain ⟨x, hx, rfl⟩ := List.mem_map.mp hr
    exact good_nonempty (i1 _ (i2 x hx))
  have hex := C84_cleanup_exact sim _ hne fs q
  rw [List.map_map] at hex
  apply hex.2
  rintro ⟨y, hy, hcl⟩
  obtain ⟨x, hx, rfl⟩ := List.mem_map.mp hy
  have hf := cleaned_of (i1 _ (i2 x hx)) hcl
  exact hn x hx (C84_runs_apart _ _ _ _ (i1 _ (i2 x hx)).nodot (i1 r hr).nodot _ hf.2.2 hq)

/-- C84: after `cleanup_files` a run that succeeded has left neither its netlist nor its log, console log and raw file, nor those LTspice adds. -/
theorem C84_nothing_left {C : Type} {sim : Model.CmdLine.Sim} {out : Option Folder} {fs0 fs : FS C} {k : Nat} {issued : List Issued} {completed : List (Issued × Ended)}
    (h : Session sim out fs0 fs k issued completed) (r : Issued) (hr : (r, Ended.ok) ∈ completed) (q : Path)
    (hq : q = r.netlist ∨ (q.root = r.netlist.root ∧ q.dir = r.netlist.dir ∧
      ∃ e, q.name = runStem r.circuit r.number ++ e ∧ (e ∈ [".log".toList, ".exe.log".toList, sim.rawExtension] ∨
        (HasExt r.netlist ".net".toList ∧ e ∈ [".log.raw".toList, ".op.raw".toList, ".db".toList])))) :
    cleanup (completed.map (fun r => taskOf sim r.1.netlist r.2)) fs q = none := by
  obtain ⟨i1, i2, _⟩ := session_inv h
  have hne : ∀ r ∈ completed.map (fun r => (r.1.netlist, r.2)), r.1.name ≠ [] := by
    intro r hr
    obtain ⟨x, hx, rfl⟩ := List.mem_map.mp hr
    exact good_nonempty (i1 _ (i2 x hx))
  have hex := C84_cleanup_exact sim _ hne fs q
  rw [List.map_map] at hex
  apply hex.1
  refine ⟨(r.netlist, Ended.ok), List.mem_map.mpr ⟨(r, Ended.ok), hr, rfl⟩, ?_⟩
  dsimp only
  have hg := i1 r (i2 _ hr)
  rcases hq with rfl | ⟨h1, h2, e, hname, he⟩
  · exact .netlist
  · have hqe : q = beside r.netlist e := by
      unfold beside
      rw [hg.name, splitExt_runFileName _ _ hg.nodot]
      obtain ⟨a, b, c⟩ := q
      dsimp only at h1 h2 hname
      rw [h1, h2, hname]
      rfl
    rw [hqe]
    rcases he with he | ⟨hx, he⟩
    · simp only [List.mem_cons, List.not_mem_nil, or_false] at he
      rcases he with rfl | rfl | rfl
      · exact .log (Or.inl rfl)
      · exact .exeLog
      · exact .raw rfl
    · exact .extra e he (Or.inl hx)

/-! ### Samples and limits -/

def anet : Path := ⟨false, ["w".toList], "a.net".toList⟩

theorem C84_sample : runFile (some ⟨false, ["out".toList]⟩) 3 (.file anet) .default = some ⟨false, ["out".toList], "a_3.net".toList⟩ ∧
    runFile none 3 (.file anet) .default = some ⟨false, ["w".toList], "a_3.net".toList⟩ ∧
    runFile none 3 (.editor anet) .default = some ⟨false, [], "a_3.net".toList⟩ ∧
    (let fs : FS Nat := fun _ => some 0
     let r := cleanup [taskOf .qspice ⟨false, ["w".toList], "a_3.net".toList⟩ .ok] fs
     r ⟨false, ["w".toList], "a_3.qraw".toList⟩ = none ∧ r ⟨false, ["w".toList], "a_3.net".toList⟩ = none ∧ r ⟨false, ["w".toList], "a_3.log".toList⟩ = none ∧
     r ⟨false, ["w".toList], "a_3.op.raw".toList⟩ = none ∧ r ⟨false, ["w".toList], "a_31.net".toList⟩ = some 0 ∧ r anet = some 0) := by decide +kernel

/-- A session: a run, its files, its end. -/
theorem C84_session_sample : ∃ (fs : FS Nat) (r : Issued),
    Session Model.CmdLine.Sim.qspice none (fun q => if q = anet then some 7 else none) fs 1 [r] [(r, .ok)] ∧
    fs ⟨false, ["w".toList], "a_1.qraw".toList⟩ = some 9 := by
  refine ⟨fun q => if q = ⟨false, ["w".toList], "a_1.qraw".toList⟩ then some 9 else
      (if q = ⟨false, ["w".toList], "a_1.net".toList⟩ then some 8 else if q = anet then some 7 else none),
    ⟨"a.net".toList, 1, ⟨false, ["w".toList], "a_1.net".toList⟩⟩, ?_, rfl⟩
  have h1 := Session.run (sim := Model.CmdLine.Sim.qspice) (out := none) (fs0 := fun q => if q = anet then some 7 else none) (.file anet)
    ⟨false, ["w".toList], "a_1.net".toList⟩ 8 .start (by decide +kernel) (by
      intro b hb
      have := congrArg List.getLast? hb
      rw [List.getLast?_append] at this
      injection this with this
      exact absurd this (by decide))
  refine .complete (completed := []) _ .ok (.write _ h1 List.mem_cons_self ?_) List.mem_cons_self
  intro q hq
  by_cases hc : q = ⟨false, ["w".toList], "a_1.qraw".toList⟩
  · rw [hc]
    exact ⟨rfl, rfl, .beside "qraw".toList (by decide)⟩
  · rw [if_neg hc] at hq
    exact absurd rfl hq

/-- Limit: the raw file of a failed simulation is not deleted. -/
theorem C84_raw_of_failed_left : cleanup [taskOf .xyce ⟨false, [], "a_1.net".toList⟩ (.failed true)] (fun _ => some 0) ⟨false, [], "a_1.raw".toList⟩ = some 0 := by
  decide +kernel

/-- Limit: with an empty run_filename and no output folder the simulation runs on the user's own file, and `cleanup_files` deletes it. -/
theorem C84_empty_name_deletes_the_original : runFile none 1 (.file anet) .empty = some anet ∧
    cleanup [taskOf .xyce anet .ok] (fun _ => some 0) anet = none := by decide +kernel

/-- Limit: a file of the user called like a run (a_1.net beside a.net) is overwritten by the run and then deleted. -/
theorem C84_clash_with_a_user_file : runFile none 1 (.file anet) .default = some ⟨false, ["w".toList], "a_1.net".toList⟩ := by decide +kernel

/-- Limit: a run_filename with directories escapes the output folder when a file is run, but not when an editor is. -/
theorem C84_given_name_escapes :
    runFile (some ⟨false, ["out".toList]⟩) 1 (.file anet) (.given ⟨true, ["tmp".toList], "x.net".toList⟩) = some ⟨true, ["tmp".toList], "x.net".toList⟩ ∧
    runFile (some ⟨false, ["out".toList]⟩) 1 (.editor anet) (.given ⟨true, ["tmp".toList], "x.net".toList⟩) = some ⟨false, ["out".toList], "x.net".toList⟩ := by
  decide +kernel

/-- Limit: with names given by the user, cleaning up one run can delete the netlist of another one that is still running. -/
theorem C84_given_names_clash :
    cleanup [taskOf .xyce ⟨false, [], "x.net".toList⟩ .ok] (fun _ => some 0) ⟨false, [], "x.db".toList⟩ = none ∧
    runFile none 2 (.editor anet) (.given ⟨false, [], "x.db".toList⟩) = some ⟨false, [], "x.db".toList⟩ := by decide +kernel

/-- Limit: a run_now whose simulation outlasts the wait is in the completed list: cleaning up deletes its netlist while it runs, and leaves its log file. -/
theorem C84_run_now_still_running :
    cleanup [taskOf .xyce ⟨false, [], "a_1.net".toList⟩ .running] (fun _ => some 0) ⟨false, [], "a_1.net".toList⟩ = none ∧
    cleanup [taskOf .xyce ⟨false, [], "a_1.net".toList⟩ .running] (fun _ => some 0) ⟨false, [], "a_1.log".toList⟩ = some 0 := by decide +kernel

end Props.Cleanup
