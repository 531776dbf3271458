import Verif.Spec.ServerFiles
import Verif.Props.Cleanup
import Mathlib.Tactic.SplitIfs
import Mathlib.Tactic.Tauto
import Mathlib.Tactic.Push
import Mathlib.Data.List.Nodup
import Mathlib.Data.List.Induction
import Mathlib.Data.List.Perm.Basic
/-
C101: the files in the folder of the simulation server.
-/
namespace Props.ServerFiles
open Model.ServerFiles Spec.ServerFiles Spec.RunFiles
open Model.Runner (runFileName splitExt)
open Lemmas.FileName
open Props.Cleanup (C84_runs_apart)

variable {C : Type}

/-! ### The folder -/

theorem put_same (f : Str) (c : Option C) (fs : Folder C) : put f c fs f = c := by simp [put]
theorem put_other {f g : Str} (h : g ≠ f) (c : Option C) (fs : Folder C) : put f c fs g = fs g := by simp [put, h]

theorem extract_append (a b : List (Str × C)) (fs : Folder C) : extract (a ++ b) fs = extract b (extract a fs) := by
  simp [extract, List.foldl_append]

theorem extract_other (ms : List (Str × C)) (fs : Folder C) (f : Str) (h : f ∉ ms.map Prod.fst) : extract ms fs f = fs f := by
  induction ms generalizing fs with
  | nil => rfl
  | cons m ms ih =>
    simp only [List.map_cons, List.mem_cons, not_or] at h
    show extract ms (put m.1 (some m.2) fs) f = _
    rw [ih _ h.2, put_other h.1]

theorem extract_last (ms : List (Str × C)) (fs : Folder C) (f : Str) (c : C) (h : LastMember ms f c) : extract ms fs f = some c := by
  obtain ⟨a, b, rfl, hb⟩ := h
  rw [extract_append]
  show extract b (put f (some c) (extract a fs)) f = _
  rw [extract_other _ _ _ hb, put_same]

theorem eraseList (l : List Str) (fs : Folder C) (f : Str) :
    (f ∈ l → l.foldl (fun fs f => put f none fs) fs f = none) ∧ (f ∉ l → l.foldl (fun fs f => put f none fs) fs f = fs f) := by
  induction l generalizing fs with
  | nil => simp
  | cons g l ih =>
    simp only [List.foldl_cons, List.mem_cons]
    by_cases hl : f ∈ l
    · exact ⟨fun _ => (ih _).1 hl, fun h => absurd (Or.inr hl) h⟩
    · rw [(ih _).2 hl]
      constructor
      · rintro (rfl | h)
        · exact put_same _ _ _
        · exact absurd h hl
      · intro h; push Not at h; exact put_other h.1 _ _

theorem eraseFiles_in {d : Done} {f : Str} (h : f ∈ d.files) (fs : Folder C) : eraseFiles d fs f = none := (eraseList _ _ _).1 h
theorem eraseFiles_out {d : Done} {f : Str} (h : f ∉ d.files) (fs : Folder C) : eraseFiles d fs f = fs f := (eraseList _ _ _).2 h
theorem eraseFiles_none {d : Done} {f : Str} {fs : Folder C} (h : fs f = none) : eraseFiles d fs f = none := by
  by_cases hf : f ∈ d.files
  · exact eraseFiles_in hf fs
  · rw [eraseFiles_out hf, h]

/-! ### Names -/

theorem stem_ne (c : Str) (n : Nat) : runStem c n ≠ [] := by simp [runStem]

theorem suffix_copy {c : Str} {n : Nat} (hc : ∀ b, c ≠ b ++ ['.']) (e : Str) : withSuffix (runFileName c n) e = runStem c n ++ e := by
  unfold withSuffix runStem
  rw [splitExt_runFileName _ _ hc]

theorem suffix_stem (c : Str) (n : Nat) (w e : Str) (hw : w ≠ []) (hd : '.' ∉ w) : withSuffix (runStem c n ++ '.' :: w) e = runStem c n ++ e := by
  unfold withSuffix
  rw [splitExt_append _ _ (stem_ne c n) hw hd]

theorem rawExt_form (sim : Model.CmdLine.Sim) : ∃ w, sim.rawExtension = '.' :: w ∧ w ≠ [] ∧ '.' ∉ w ∧ '_' ∉ w ∧ w ≠ "log".toList ∧ w ≠ "fail".toList ∧ w ≠ "zip".toList := by
  cases sim with
  | qspice => exact ⟨"qraw".toList, rfl, by decide, by decide, by decide, by decide, by decide, by decide⟩
  | _ => exact ⟨"raw".toList, rfl, by decide, by decide, by decide, by decide, by decide, by decide⟩

theorem of_log (c : Str) (n : Nat) : FileOf c n (runStem c n ++ ".log".toList) := .beside "log".toList (by decide)
theorem of_fail (c : Str) (n : Nat) : FileOf c n (runStem c n ++ ".fail".toList) := .beside "fail".toList (by decide)
theorem of_zip (c : Str) (n : Nat) : FileOf c n (runStem c n ++ ".zip".toList) := .beside "zip".toList (by decide)
theorem of_raw (sim : Model.CmdLine.Sim) (c : Str) (n : Nat) : FileOf c n (runStem c n ++ sim.rawExtension) := by
  obtain ⟨w, hw, _, _, hu, _⟩ := rawExt_form sim
  rw [hw]; exact .beside w hu

theorem own_fileOf {a : Active} (ha : a.circuit = runFileName a.source a.no) {f : Str} (h : ownFile a f = true) : FileOf a.source a.no f := by
  unfold ownFile at h
  simp only [Bool.or_eq_true, decide_eq_true_eq, Bool.and_eq_true, Bool.not_eq_true'] at h
  rcases h with h | ⟨h1, h2⟩
  · rw [h, ha]; exact .netlist
  · obtain ⟨e, rfl⟩ := List.isPrefixOf_iff_prefix.mp h1
    rw [List.drop_left] at h2
    have : (splitExt a.source).1 ++ '_' :: Nat.toDigits 10 a.no ++ ['.'] ++ e = runStem a.source a.no ++ '.' :: e := by simp [runStem]
    rw [this]
    exact .beside e (by
      intro hm
      have : e.contains '_' = true := by simpa using hm
      rw [this] at h2; cases h2)

/-! ### The end of a run -/

/-- The entry of completed_tasks for run `n` of circuit `c`, as far as it does not depend on the files. -/
structure DoneOf (sim : Model.CmdLine.Sim) (c : Str) (ok : Bool) (d : Done) : Prop where
  circuit : d.circuit = runFileName c d.no
  raw : d.raw = if ok then some (runStem c d.no ++ sim.rawExtension) else none
  log : d.log = runStem c d.no ++ ".log".toList ∨ (ok = false ∧ d.log = runStem c d.no ++ ".fail".toList)
  zip : d.zip = none ∨ d.zip = some (archive c d.no)

theorem done_files {sim : Model.CmdLine.Sim} {c : Str} {ok : Bool} {d : Done} (h : DoneOf sim c ok d) {f : Str} (hf : f ∈ d.files) : FileOf c d.no f := by
  unfold Done.files at hf
  simp only [List.mem_append, List.mem_cons, List.not_mem_nil, or_false, Option.mem_toList] at hf
  rcases hf with ((hf | hf) | hf) | hf
  · rw [hf, h.circuit]; exact .netlist
  · rw [hf]
    rcases h.log with h | ⟨_, h⟩ <;> rw [h]
    · exact of_log _ _
    · exact of_fail _ _
  · rw [h.raw] at hf
    split_ifs at hf
    injection hf with hf; rw [← hf]; exact of_raw _ _ _
  · rcases h.zip with h | h <;> rw [h] at hf
    · cases hf
    · injection hf with hf; rw [← hf]; exact of_zip _ _

theorem member_eq (fs : Folder C) (f : Str) : member fs f = existing fs f := by
  unfold existing member
  cases fs f <;> rfl

theorem existing_none {fs : Folder C} {f : Str} (h : fs f = none) : existing fs f = [] := by simp [existing, h]
theorem existing_some {fs : Folder C} {f : Str} {c : C} (h : fs f = some c) : existing fs f = [(f, c)] := by simp [existing, h]

/-- zip_files, when the two names give the same archive name. -/
theorem zip_eq (pack : List (Str × C) → C) (raw : Option Str) (log z : Str) (fs : Folder C) (hr : ∀ r, raw = some r → withSuffix r ".zip".toList = z)
    (hl : withSuffix log ".zip".toList = z) :
    zipFiles pack raw log fs =
      if (raw.toList.flatMap (existing fs)) ++ existing fs log = [] then (fs, none)
      else (put z (some (pack ((raw.toList.flatMap (existing fs)) ++ existing fs log))) fs, some z) := by
  unfold zipFiles
  simp only [member_eq, hl]
  cases raw with
  | none =>
    cases h : fs log with
    | none => simp [existing_none h]
    | some c => simp [existing_some h]
  | some r =>
    have hz := hr r rfl
    cases h : fs r with
    | none =>
      cases h2 : fs log with
      | none => simp [existing_none h, existing_none h2, h, Option.filter]
      | some c => simp [existing_none h, existing_some h2, h, Option.filter]
    | some c =>
      have hf : Option.filter (fun r => (fs r).isSome) (some r) = some r := by simp [Option.filter, h]
      simp only [hf, hz]
      simp [existing_some h]

theorem end_eq (sim : Model.CmdLine.Sim) (pack : List (Str × C) → C) (a : Active) (ha : a.circuit = runFileName a.source a.no)
    (hc : ∀ b, a.source ≠ b ++ ['.']) (ok : Bool) (fs : Folder C) :
    DoneOf sim a.source ok (endRun sim pack a ok fs).2 ∧ (endRun sim pack a ok fs).2.no = a.no ∧
    ((endRun sim pack a ok fs).2.zip = if results sim fs a.source a.no ok = [] then none else some (archive a.source a.no)) ∧
    (results sim fs a.source a.no ok ≠ [] → (endRun sim pack a ok fs).1 (archive a.source a.no) = some (pack (results sim fs a.source a.no ok))) ∧
    (∀ m ∈ results sim fs a.source a.no ok, m.1 ∈ (endRun sim pack a ok fs).2.files) ∧
    (∀ f, (endRun sim pack a ok fs).1 f ≠ fs f → FileOf a.source a.no f) ∧
    (∀ f, (endRun sim pack a ok fs).1 f ≠ none → fs f ≠ none ∨ f ∈ (endRun sim pack a ok fs).2.files) ∧
    (ok = false → (endRun sim pack a ok fs).1 (runStem a.source a.no ++ ".log".toList) = none) := by
  obtain ⟨w, hw, hw1, hw2, hw3, hw4, hw5, hw6⟩ := rawExt_form sim
  have hlz : (runStem a.source a.no ++ ".log".toList : Str) ≠ archive a.source a.no := by
    intro h; exact absurd (List.append_cancel_left h) (by decide)
  have hlf : (runStem a.source a.no ++ ".log".toList : Str) ≠ runStem a.source a.no ++ ".fail".toList := by
    intro h; exact absurd (List.append_cancel_left h) (by decide)
  have hl : withSuffix a.circuit ".log".toList = runStem a.source a.no ++ ".log".toList := by rw [ha, suffix_copy hc]
  have hr : withSuffix a.circuit sim.rawExtension = runStem a.source a.no ++ sim.rawExtension := by rw [ha, suffix_copy hc]
  have hzl : withSuffix (runStem a.source a.no ++ ".log".toList) ".zip".toList = archive a.source a.no :=
    suffix_stem _ _ "log".toList _ (by decide) (by decide)
  have hzf : withSuffix (runStem a.source a.no ++ ".fail".toList) ".zip".toList = archive a.source a.no :=
    suffix_stem _ _ "fail".toList _ (by decide) (by decide)
  have hff : withSuffix (runStem a.source a.no ++ ".log".toList) ".fail".toList = runStem a.source a.no ++ ".fail".toList :=
    suffix_stem _ _ "log".toList _ (by decide) (by decide)
  have hzr : withSuffix (runStem a.source a.no ++ sim.rawExtension) ".zip".toList = archive a.source a.no := by
    rw [hw]; exact suffix_stem _ _ w _ hw1 hw2
  cases ok with
  | true =>
    have hz := zip_eq pack (some (runStem a.source a.no ++ sim.rawExtension)) (runStem a.source a.no ++ ".log".toList) (archive a.source a.no) fs
      (by intro r hr; injection hr with hr; rw [← hr, hzr]) hzl
    have hres : results sim fs a.source a.no true = ((some (runStem a.source a.no ++ sim.rawExtension)).toList.flatMap (existing fs)) ++ existing fs (runStem a.source a.no ++ ".log".toList) := by
      simp [results]
    rw [← hres] at hz
    unfold endRun
    simp only [if_true, hl, hr, hz]
    by_cases he : results sim fs a.source a.no true = []
    · simp only [he, if_true]
      refine ⟨⟨ha, rfl, Or.inl rfl, Or.inl rfl⟩, trivial, trivial, fun h => absurd rfl h, by simp, fun f h => absurd rfl h, fun f h => Or.inl h, by simp⟩
    · simp only [he, if_false]
      refine ⟨⟨ha, rfl, Or.inl rfl, Or.inr rfl⟩, trivial, trivial, fun _ => put_same _ _ _, ?_, ?_, ?_, by simp⟩
      · intro m hm
        rw [hres] at hm
        simp only [Option.toList_some, List.flatMap_cons, List.flatMap_nil, List.append_nil, List.mem_append, existing, List.mem_map, Option.mem_toList] at hm
        simp only [Done.files, List.mem_append, List.mem_cons, List.not_mem_nil, or_false, Option.mem_toList, Option.some.injEq]
        rcases hm with ⟨x, _, rfl⟩ | ⟨x, _, rfl⟩
        · exact Or.inl (Or.inr rfl)
        · exact Or.inl (Or.inl (Or.inr rfl))
      · intro f hf
        by_cases hx : f = archive a.source a.no
        · rw [hx]; exact of_zip _ _
        · exact absurd (put_other hx _ _) hf
      · intro f hf
        by_cases hx : f = archive a.source a.no
        · exact Or.inr (by simp [Done.files, hx])
        · rw [put_other hx] at hf; exact Or.inl hf
  | false =>
    unfold endRun
    simp only [Bool.false_eq_true, if_false, hl, hff]
    cases hlog : fs (runStem a.source a.no ++ ".log".toList) with
    | none =>
      have hz := zip_eq pack none (runStem a.source a.no ++ ".log".toList) (archive a.source a.no) fs (by intro r hr; cases hr) hzl
      have he : results sim fs a.source a.no false = [] := by simp only [results, Bool.false_eq_true, if_false, hlog]; rfl
      have hz2 : zipFiles pack none (runStem a.source a.no ++ ".log".toList) fs = (fs, none) := by
        rw [hz, if_pos]
        rw [existing_none hlog]; rfl
      simp only [hz2, he, if_true]
      exact ⟨⟨ha, rfl, Or.inl rfl, Or.inl rfl⟩, trivial, trivial, fun h => absurd rfl h, by simp, fun f h => absurd rfl h, fun f h => Or.inl h, fun _ => hlog⟩
    | some x =>
      have hz := zip_eq pack none (runStem a.source a.no ++ ".fail".toList) (archive a.source a.no)
        (put (runStem a.source a.no ++ ".fail".toList) (some x) (put (runStem a.source a.no ++ ".log".toList) none fs)) (by intro r hr; cases hr) hzf
      have he : results sim fs a.source a.no false = [(runStem a.source a.no ++ ".fail".toList, x)] := by
        simp only [results, Bool.false_eq_true, if_false, hlog]; rfl
      have hm : (Option.toList (none : Option Str)).flatMap (existing (put (runStem a.source a.no ++ ".fail".toList) (some x) (put (runStem a.source a.no ++ ".log".toList) none fs))) ++
          existing (put (runStem a.source a.no ++ ".fail".toList) (some x) (put (runStem a.source a.no ++ ".log".toList) none fs)) (runStem a.source a.no ++ ".fail".toList) =
          results sim fs a.source a.no false := by
        rw [he]
        simp only [existing, put_same]
        rfl
      rw [hm] at hz
      have hne : results sim fs a.source a.no false ≠ [] := by rw [he]; simp
      rw [if_neg hne] at hz
      simp only [hz, if_neg hne]
      refine ⟨⟨ha, rfl, Or.inr ⟨rfl, rfl⟩, Or.inr rfl⟩, trivial, trivial, fun _ => put_same _ _ _, ?_, ?_, ?_, ?_⟩
      · intro m hm
        rw [he] at hm
        simp only [List.mem_singleton] at hm
        rw [hm]
        simp [Done.files]
      · intro f hf
        by_cases hx : f = archive a.source a.no
        · rw [hx]; exact of_zip _ _
        · rw [put_other hx] at hf
          by_cases hy : f = runStem a.source a.no ++ ".fail".toList
          · rw [hy]; exact of_fail _ _
          · rw [put_other hy] at hf
            by_cases hv : f = runStem a.source a.no ++ ".log".toList
            · rw [hv]; exact of_log _ _
            · exact absurd (put_other hv _ _) hf
      · intro f hf
        by_cases hx : f = archive a.source a.no
        · exact Or.inr (by simp [Done.files, hx])
        · rw [put_other hx] at hf
          by_cases hy : f = runStem a.source a.no ++ ".fail".toList
          · exact Or.inr (by simp [Done.files, hy])
          · rw [put_other hy] at hf
            by_cases hv : f = runStem a.source a.no ++ ".log".toList
            · rw [hv, put_same] at hf; exact absurd rfl hf
            · rw [put_other hv] at hf; exact Or.inl hf
      · intro _
        rw [put_other hlz, put_other hlf, put_same]

/-! ### Erasing -/

theorem erase_spec (r : Nat) (l : List Done) (fs : Folder C) (hn : (l.map Done.no).Nodup) :
    (∀ d, d ∈ (erase r l fs).1 ↔ d ∈ l ∧ d.no ≠ r) ∧ List.Sublist (erase r l fs).1 l ∧
    (∀ f, (erase r l fs).2 f ≠ fs f → ∃ d ∈ l, d.no = r ∧ f ∈ d.files) ∧
    (∀ d ∈ l, d.no = r → ∀ f ∈ d.files, (erase r l fs).2 f = none) ∧
    (∀ f, fs f = none → (erase r l fs).2 f = none) := by
  induction l with
  | nil => simp [erase]
  | cons e t ih =>
    simp only [List.map_cons, List.nodup_cons] at hn
    obtain ⟨h1, h2, h3, h4, h5⟩ := ih hn.2
    unfold erase
    by_cases he : e.no = r
    · simp only [he, if_true]
      have hnot : ∀ d ∈ t, d.no ≠ r := fun d hd h => hn.1 (List.mem_map.mpr ⟨d, hd, by rw [h, he]⟩)
      refine ⟨fun d => ⟨fun h => ⟨List.mem_cons_of_mem _ h, hnot d h⟩, fun h => ?_⟩, List.sublist_cons_self _ _, ?_, ?_, fun f hf => eraseFiles_none hf⟩
      · rcases List.mem_cons.mp h.1 with rfl | h'
        · exact absurd he h.2
        · exact h'
      · intro f hf
        refine ⟨e, List.mem_cons_self, he, ?_⟩
        by_contra hx
        exact hf (eraseFiles_out hx fs)
      · intro d hd hdr f hf
        rcases List.mem_cons.mp hd with rfl | hd
        · exact eraseFiles_in hf fs
        · exact absurd hdr (hnot d hd)
    · simp only [he, if_false]
      refine ⟨fun d => ?_, h2.cons₂ e, ?_, ?_, h5⟩
      · simp only [List.mem_cons, h1 d]
        constructor
        · rintro (rfl | h)
          · exact ⟨Or.inl rfl, he⟩
          · exact ⟨Or.inr h.1, h.2⟩
        · rintro ⟨rfl | h, h'⟩
          · exact Or.inl rfl
          · exact Or.inr ⟨h, h'⟩
      · intro f hf
        obtain ⟨d, hd, hh⟩ := h3 f hf
        exact ⟨d, List.mem_cons_of_mem _ hd, hh⟩
      · intro d hd hdr f hf
        rcases List.mem_cons.mp hd with rfl | hd
        · exact absurd hdr he
        · exact h4 d hd hdr f hf

theorem eraseAll_spec (rs : List Nat) (l : List Done) (fs : Folder C) (hn : (l.map Done.no).Nodup) :
    (∀ d, d ∈ (eraseAll rs (l, fs)).1 ↔ d ∈ l ∧ d.no ∉ rs) ∧ List.Sublist (eraseAll rs (l, fs)).1 l ∧
    (∀ f, (eraseAll rs (l, fs)).2 f ≠ fs f → ∃ d ∈ l, d.no ∈ rs ∧ f ∈ d.files) ∧
    (∀ d ∈ l, d.no ∈ rs → ∀ f ∈ d.files, (eraseAll rs (l, fs)).2 f = none) ∧
    (∀ f, fs f = none → (eraseAll rs (l, fs)).2 f = none) := by
  induction rs generalizing l fs with
  | nil => simp [eraseAll]
  | cons r rs ih =>
    obtain ⟨g1, g2, g3, g4, g5⟩ := erase_spec r l fs hn
    have hn2 : ((erase r l fs).1.map Done.no).Nodup := hn.sublist (g2.map _)
    obtain ⟨h1, h2, h3, h4, h5⟩ := ih (erase r l fs).1 (erase r l fs).2 hn2
    show (∀ d, d ∈ (eraseAll rs ((erase r l fs).1, (erase r l fs).2)).1 ↔ _) ∧ List.Sublist (eraseAll rs ((erase r l fs).1, (erase r l fs).2)).1 l ∧
      (∀ f, (eraseAll rs ((erase r l fs).1, (erase r l fs).2)).2 f ≠ fs f → _) ∧
      (∀ d ∈ l, d.no ∈ r :: rs → ∀ f ∈ d.files, (eraseAll rs ((erase r l fs).1, (erase r l fs).2)).2 f = none) ∧
      (∀ f, fs f = none → (eraseAll rs ((erase r l fs).1, (erase r l fs).2)).2 f = none)
    refine ⟨fun d => ?_, h2.trans g2, ?_, ?_, fun f hf => h5 f (g5 f hf)⟩
    · rw [h1 d, g1 d]
      simp only [List.mem_cons, not_or]
      tauto
    · intro f hf
      by_cases hx : (erase r l fs).2 f = fs f
      · rw [← hx] at hf
        obtain ⟨d, hd, hr, hh⟩ := h3 f hf
        exact ⟨d, ((g1 d).mp hd).1, List.mem_cons_of_mem _ hr, hh⟩
      · obtain ⟨d, hd, hr, hh⟩ := g3 f hx
        exact ⟨d, hd, by rw [hr]; exact List.mem_cons_self, hh⟩
    · intro d hd hr f hf
      by_cases hdr : d.no = r
      · exact h5 f (g4 d hd hdr f hf)
      · refine h4 d ((g1 d).mpr ⟨hd, hdr⟩) ?_ f hf
        rcases List.mem_cons.mp hr with h | h
        · exact absurd h hdr
        · exact h

theorem fetch_spec (r : Nat) (l : List Done) (hn : (l.map Done.no).Nodup) :
    (∀ z, fetch r l = some z → ∃ d ∈ l, d.no = r ∧ d.zip = some z) ∧ (∀ d ∈ l, d.no = r → fetch r l = d.zip) := by
  induction l with
  | nil => simp [fetch]
  | cons e t ih =>
    simp only [List.map_cons, List.nodup_cons] at hn
    obtain ⟨h1, h2⟩ := ih hn.2
    unfold fetch
    by_cases he : e.no = r
    · have hnot : ∀ d ∈ t, d.no ≠ r := fun d hd h => hn.1 (List.mem_map.mpr ⟨d, hd, by rw [h, he]⟩)
      simp only [he, if_true]
      cases hz : e.zip with
      | some z =>
        refine ⟨fun z' h => ⟨e, List.mem_cons_self, he, by rw [hz]; exact h⟩, fun d hd hdr => ?_⟩
        rcases List.mem_cons.mp hd with rfl | hd
        · exact hz.symm
        · exact absurd hdr (hnot d hd)
      | none =>
        have hnone : fetch r t = none := by
          cases hf : fetch r t with
          | none => rfl
          | some z => obtain ⟨d, hd, hdr, _⟩ := h1 z hf; exact absurd hdr (hnot d hd)
        refine ⟨fun z' h => ?_, fun d hd hdr => ?_⟩
        · simp only [hnone] at h; cases h
        · rcases List.mem_cons.mp hd with rfl | hd
          · rw [hz]; exact hnone
          · exact absurd hdr (hnot d hd)
    · simp only [he, if_false]
      refine ⟨fun z h => ?_, fun d hd hdr => ?_⟩
      · obtain ⟨d, hd, hh⟩ := h1 z h
        exact ⟨d, List.mem_cons_of_mem _ hd, hh⟩
      · rcases List.mem_cons.mp hd with rfl | hd
        · exact absurd hdr he
        · exact h2 d hd hdr

/-! ### Sessions -/

theorem lookup_append (s k : Nat) (l : List (Nat × List Nat)) : lookup s (l ++ [(k, [])]) = (lookup s l).or (if k = s then some [] else none) := by
  induction l with
  | nil => simp [lookup]
  | cons e t ih =>
    obtain ⟨a, b⟩ := e
    simp only [List.cons_append, lookup, ih]
    split_ifs <;> simp

theorem lookup_push (s s' r : Nat) (l : List (Nat × List Nat)) :
    lookup s' (push s r l) = if s' = s then (lookup s' l).map (· ++ [r]) else lookup s' l := by
  induction l with
  | nil => simp [lookup, push]
  | cons e t ih =>
    obtain ⟨a, b⟩ := e
    unfold push
    by_cases ha : a = s
    · subst ha
      by_cases hs : s' = a
      · subst hs; simp [lookup]
      · simp [lookup, hs, Ne.symm hs]
    · simp only [ha, if_false, lookup]
      by_cases hs : a = s'
      · subst hs; simp [ha]
      · simp only [hs, if_false, ih]

theorem lookup_filter (s s' : Nat) (l : List (Nat × List Nat)) :
    lookup s' (l.filter (fun e => e.1 ≠ s)) = if s' = s then none else lookup s' l := by
  induction l with
  | nil => simp [lookup]
  | cons e t ih =>
    obtain ⟨a, b⟩ := e
    by_cases ha : a = s
    · subst ha
      have : ((a, b) :: t).filter (fun e => e.1 ≠ a) = t.filter (fun e => e.1 ≠ a) := by simp
      rw [this, ih]
      by_cases hs : s' = a
      · simp [hs]
      · simp [hs, lookup, Ne.symm hs]
    · have : ((a, b) :: t).filter (fun e => e.1 ≠ s) = (a, b) :: t.filter (fun e => e.1 ≠ s) := by simp [ha]
      rw [this]
      simp only [lookup, ih]
      by_cases hs : a = s'
      · subst hs; simp [ha]
      · simp [hs]

/-! ### Histories -/

theorem exec_snoc (sim : Model.CmdLine.Sim) (pack : List (Str × C) → C) (st : St C) (as : List (Act C)) (a : Act C) :
    exec sim pack st (as ++ [a]) = ((step sim pack (exec sim pack st as).1 a).1, (exec sim pack st as).2 ++ [(a, (step sim pack (exec sim pack st as).1 a).2)]) := by
  induction as generalizing st with
  | nil => rfl
  | cons b bs ih =>
    simp only [List.cons_append, exec]
    rw [ih]

theorem exec_acts (sim : Model.CmdLine.Sim) (pack : List (Str × C) → C) (st : St C) (as : List (Act C)) : (exec sim pack st as).2.map Prod.fst = as := by
  induction as generalizing st with
  | nil => rfl
  | cons b bs ih => simp only [exec, List.map_cons, ih]

theorem started_snoc {h : History C} {a : Act C} {o : Out C} {s n : Nat} {c : Str} :
    Started (h ++ [(a, o)]) s n c ↔ Started h s n c ∨ ((∃ ms free, a = .run s c ms free) ∧ o = .runno n) := by
  unfold Started
  constructor
  · rintro ⟨ms, free, hm⟩
    rcases List.mem_append.mp hm with hm | hm
    · exact Or.inl ⟨ms, free, hm⟩
    · simp only [List.mem_singleton, Prod.mk.injEq] at hm
      exact Or.inr ⟨⟨ms, free, hm.1.symm⟩, hm.2.symm⟩
  · rintro (⟨ms, free, hm⟩ | ⟨⟨ms, free, rfl⟩, rfl⟩)
    · exact ⟨ms, free, List.mem_append.mpr (Or.inl hm)⟩
    · exact ⟨ms, free, by simp⟩

theorem started_mono {h : History C} {e : Act C × Out C} {s n : Nat} {c : Str} (hs : Started h s n c) : Started (h ++ [e]) s n c :=
  started_snoc.mpr (Or.inl hs)

theorem ended_mono {h : History C} {e : Act C × Out C} {n : Nat} (hs : Ended h n) : Ended (h ++ [e]) n := by
  obtain ⟨ok, hm⟩ := hs
  exact ⟨ok, List.mem_append.mpr (Or.inl hm)⟩

/-- What holds after every history. -/
structure Inv (sim : Model.CmdLine.Sim) (st : St C) (h : History C) : Prop where
  act : ∀ a ∈ st.active, a.circuit = runFileName a.source a.no ∧ (∀ b, a.source ≠ b ++ ['.']) ∧ ∃ s, Started h s a.no a.source
  nodup : (st.active.map Active.no ++ st.completed.map Done.no).Nodup
  done : ∀ d ∈ st.completed, ∃ c ok s, (∀ b, c ≠ b ++ ['.']) ∧ DoneOf sim c ok d ∧ Started h s d.no c ∧ (Act.finish d.no ok, Out.moved) ∈ h
  bound : ∀ s n c, Started h s n c → 1 ≤ n ∧ n ≤ st.runno
  uniq : ∀ s s' n c c', Started h s n c → Started h s' n c' → s = s' ∧ c = c'
  nodot : ∀ s n c, Started h s n c → ∀ b, c ≠ b ++ ['.']
  sess : ∀ s l, lookup s st.sessions = some l → ∀ n ∈ l, ∃ c, Started h s n c
  open_ : ∀ s n c, Started h s n c → (∀ o, (Act.close s, o) ∉ h) → ∃ l, lookup s st.sessions = some l ∧ n ∈ l
  live : ∀ s n c, Started h s n c → (∃ a ∈ st.active, a.no = n ∧ a.source = c) ∨ Ended h n

theorem Inv.cnodup {sim : Model.CmdLine.Sim} {st : St C} {h : History C} (i : Inv sim st h) : (st.completed.map Done.no).Nodup :=
  (List.nodup_append.mp i.nodup).2.1

/-- An action that starts no run and changes neither the runs nor the sessions. -/
theorem inv_quiet {sim : Model.CmdLine.Sim} {st : St C} {h : History C} (i : Inv sim st h) (a : Act C) (o : Out C) (fs : Folder C) (k : Nat)
    (hk : st.runno ≤ k) (ho : ∀ n, o ≠ .runno n) : Inv sim { st with fs := fs, runno := k } (h ++ [(a, o)]) := by
  have hs : ∀ {s n c}, Started (h ++ [(a, o)]) s n c → Started h s n c := by
    intro s n c hx
    rcases started_snoc.mp hx with hx | ⟨_, hx⟩
    · exact hx
    · exact absurd hx (ho n)
  exact {
    act := fun x hx => ⟨(i.act x hx).1, (i.act x hx).2.1, (i.act x hx).2.2.imp (fun _ => started_mono)⟩
    nodup := i.nodup
    done := fun d hd => by
      obtain ⟨c, ok, s, h1, h2, h3, h4⟩ := i.done d hd
      exact ⟨c, ok, s, h1, h2, started_mono h3, List.mem_append.mpr (Or.inl h4)⟩
    bound := fun s n c hx => ⟨(i.bound s n c (hs hx)).1, Nat.le_trans (i.bound s n c (hs hx)).2 hk⟩
    uniq := fun s s' n c c' h1 h2 => i.uniq s s' n c c' (hs h1) (hs h2)
    nodot := fun s n c hx => i.nodot s n c (hs hx)
    sess := fun s l hl n hn => (i.sess s l hl n hn).imp (fun _ => started_mono)
    open_ := fun s n c hx hc => i.open_ s n c (hs hx) (fun o ho => hc o (List.mem_append.mpr (Or.inl ho)))
    live := fun s n c hx => (i.live s n c (hs hx)).imp id ended_mono }

theorem inv_step {sim : Model.CmdLine.Sim} {pack : List (Str × C) → C} {st : St C} {h : History C} (i : Inv sim st h) (a : Act C)
    (hd : NoDot [a]) : Inv sim (step sim pack st a).1 (h ++ [(a, (step sim pack st a).2)]) := by
  cases a with
  | start =>
    have := inv_quiet i .start (.session st.nextSession) st.fs st.runno (Nat.le_refl _) (by simp)
    exact { this with
      sess := fun s l hl n hn => by
        simp only [step, lookup_append] at hl
        cases hx : lookup s st.sessions with
        | some l' =>
          rw [hx] at hl
          injection hl with hl
          subst hl
          exact (i.sess s l' hx n hn).imp (fun _ => started_mono)
        | none =>
          rw [hx, Option.none_or] at hl
          split_ifs at hl
          injection hl with hl
          subst hl
          cases hn
      open_ := fun s n c hx hc => by
        obtain ⟨l, hl, hn⟩ := this.open_ s n c hx hc
        exact ⟨l, by simp only [step, lookup_append]; rw [hl]; rfl, hn⟩ }
  | upload s ms =>
    simp only [step]
    cases hx : lookup s st.sessions with
    | none => (refine inv_quiet i _ _ st.fs st.runno ?_ ?_ <;> simp)
    | some l => (refine inv_quiet i _ _ _ st.runno ?_ ?_ <;> simp)
  | run s c ms free =>
    show Inv sim (step sim pack st (.run s c ms free)).1 (h ++ [(Act.run s c ms free, (step sim pack st (.run s c ms free)).2)])
    have hc : ∀ b, c ≠ b ++ ['.'] := hd s c ms free (by simp)
    simp only [step]
    cases hx : lookup s st.sessions with
    | none => (refine inv_quiet i _ _ st.fs st.runno ?_ ?_ <;> simp)
    | some l =>
      simp only
      unfold runIn
      cases hf : extract ms st.fs c with
      | none => (refine inv_quiet i _ _ _ _ ?_ ?_ <;> simp)
      | some x =>
        cases free with
        | false => (refine inv_quiet i _ _ _ _ ?_ ?_ <;> simp)
        | true =>
          simp only [if_true]
          have fresh : ∀ s' c', ¬ Started h s' (st.runno + 1) c' := fun s' c' hh => by have := (i.bound _ _ _ hh).2; omega
          have new : Started (h ++ [(Act.run s c ms true, Out.runno (st.runno + 1))]) s (st.runno + 1) c := started_snoc.mpr (Or.inr ⟨⟨ms, true, rfl⟩, rfl⟩)
          have inv : ∀ {s' n c'}, Started (h ++ [(Act.run s c ms true, Out.runno (st.runno + 1))]) s' n c' →
              (Started h s' n c' ∧ n ≠ st.runno + 1) ∨ (s' = s ∧ c' = c ∧ n = st.runno + 1) := by
            intro s' n c' hh
            rcases started_snoc.mp hh with hh | ⟨⟨ms', fr, h1⟩, h2⟩
            · exact Or.inl ⟨hh, fun h => fresh s' c' (h ▸ hh)⟩
            · injection h1 with h1 h3; injection h2 with h2
              exact Or.inr ⟨h1.symm, h3.symm, h2.symm⟩
          refine { act := ?_, nodup := ?_, done := ?_, bound := ?_, uniq := ?_, nodot := ?_, sess := ?_, open_ := ?_, live := ?_ }
          · intro y hy
            rcases List.mem_append.mp hy with hy | hy
            · exact ⟨(i.act y hy).1, (i.act y hy).2.1, (i.act y hy).2.2.imp (fun _ => started_mono)⟩
            · simp only [List.mem_singleton] at hy
              subst hy
              exact ⟨rfl, hc, s, new⟩
          · have h1 : st.runno + 1 ∉ st.active.map Active.no ++ st.completed.map Done.no := by
              intro hm
              rcases List.mem_append.mp hm with hm | hm
              · obtain ⟨y, hy, hyn⟩ := List.mem_map.mp hm
                obtain ⟨s', hs'⟩ := (i.act y hy).2.2
                exact fresh s' _ (hyn ▸ hs')
              · obtain ⟨y, hy, hyn⟩ := List.mem_map.mp hm
                obtain ⟨c', ok, s', _, _, hs', _⟩ := i.done y hy
                exact fresh s' _ (hyn ▸ hs')
            have : (st.active ++ [(⟨st.runno + 1, c, runFileName c (st.runno + 1)⟩ : Active)]).map Active.no ++ st.completed.map Done.no =
                st.active.map Active.no ++ (st.runno + 1) :: st.completed.map Done.no := by simp
            rw [this, List.nodup_middle]
            exact List.nodup_cons.mpr ⟨h1, i.nodup⟩
          · intro d hd
            obtain ⟨c', ok, s', h1, h2, h3, h4⟩ := i.done d hd
            exact ⟨c', ok, s', h1, h2, started_mono h3, List.mem_append.mpr (Or.inl h4)⟩
          · intro s' n c' hh
            rcases inv hh with ⟨hh, _⟩ | ⟨_, _, rfl⟩
            · exact ⟨(i.bound _ _ _ hh).1, Nat.le_succ_of_le (i.bound _ _ _ hh).2⟩
            · exact ⟨by omega, Nat.le_refl _⟩
          · intro s1 s2 n c1 c2 h1 h2
            rcases inv h1 with ⟨h1, hn⟩ | ⟨rfl, rfl, rfl⟩
            · rcases inv h2 with ⟨h2, _⟩ | ⟨_, _, hn2⟩
              · exact i.uniq _ _ _ _ _ h1 h2
              · exact absurd hn2 hn
            · rcases inv h2 with ⟨_, hn⟩ | ⟨h2, h3, _⟩
              · exact absurd rfl hn
              · exact ⟨h2.symm, h3.symm⟩
          · intro s' n c' hh
            rcases inv hh with ⟨hh, _⟩ | ⟨_, rfl, _⟩
            · exact i.nodot _ _ _ hh
            · exact hc
          · intro s' l' hl n hn
            simp only [lookup_push] at hl
            split_ifs at hl with hs
            · subst hs
              rw [hx] at hl
              simp only [Option.map_some, Option.some.injEq] at hl
              subst hl
              rcases List.mem_append.mp hn with hn | hn
              · exact (i.sess s' l hx n hn).imp (fun _ => started_mono)
              · simp only [List.mem_singleton] at hn
                subst hn
                exact ⟨c, new⟩
            · exact (i.sess s' l' hl n hn).imp (fun _ => started_mono)
          · intro s' n c' hh hcl
            simp only [lookup_push]
            rcases inv hh with ⟨hh, _⟩ | ⟨rfl, rfl, rfl⟩
            · obtain ⟨l', hl', hn⟩ := i.open_ s' n c' hh (fun o ho => hcl o (List.mem_append.mpr (Or.inl ho)))
              rw [hl']
              split_ifs
              · exact ⟨_, rfl, by simp [hn]⟩
              · exact ⟨_, rfl, hn⟩
            · rw [if_pos rfl, hx]
              exact ⟨_, rfl, by simp⟩
          · intro s' n c' hh
            rcases inv hh with ⟨hh, _⟩ | ⟨rfl, rfl, rfl⟩
            · rcases i.live _ _ _ hh with ⟨y, hy, hh⟩ | hh
              · exact Or.inl ⟨y, List.mem_append.mpr (Or.inl hy), hh⟩
              · exact Or.inr (ended_mono hh)
            · exact Or.inl ⟨_, List.mem_append.mpr (Or.inr List.mem_cons_self), rfl, rfl⟩
  | write r f x =>
    simp only [step]
    cases hx : st.active.find? (fun a => a.no = r) with
    | none => (refine inv_quiet i _ _ st.fs st.runno ?_ ?_ <;> simp)
    | some y =>
      simp only
      split_ifs
      · (refine inv_quiet i _ _ _ st.runno ?_ ?_ <;> simp)
      · (refine inv_quiet i _ _ st.fs st.runno ?_ ?_ <;> simp)
  | finish r ok =>
    show Inv sim (finishRun sim pack st r ok).1 (h ++ [(Act.finish r ok, (finishRun sim pack st r ok).2)])
    unfold finishRun
    cases hx : st.active.find? (fun a => a.no = r) with
    | none => (refine inv_quiet i _ _ st.fs st.runno ?_ ?_ <;> simp)
    | some y =>
      simp only
      have hy : y ∈ st.active := List.mem_of_find?_eq_some hx
      have hyr : y.no = r := by simpa using List.find?_some hx
      obtain ⟨e1, e2, _⟩ := end_eq sim pack y (i.act y hy).1 (i.act y hy).2.1 ok st.fs
      have q := inv_quiet i (.finish r ok) .moved st.fs st.runno (Nat.le_refl _) (by simp)
      have perm : ((st.active.erase y).map Active.no ++ (st.completed ++ [(endRun sim pack y ok st.fs).2]).map Done.no).Perm
          (st.active.map Active.no ++ st.completed.map Done.no) := by
        have p1 : (st.active.map Active.no).Perm (y.no :: (st.active.erase y).map Active.no) := (List.perm_cons_erase hy).map Active.no
        rw [List.map_append]
        simp only [List.map_cons, List.map_nil, e2]
        rw [← List.append_assoc]
        refine (List.perm_append_singleton y.no _).trans ?_
        exact (p1.append_right _).symm
      exact { q with
        act := fun x hx => q.act x (List.mem_of_mem_erase hx)
        nodup := perm.nodup_iff.mpr i.nodup
        done := fun d hd => by
          rcases List.mem_append.mp hd with hd | hd
          · exact q.done d hd
          · simp only [List.mem_singleton] at hd
            subst hd
            obtain ⟨s, hs⟩ := (i.act y hy).2.2
            refine ⟨y.source, ok, s, (i.act y hy).2.1, e1, ?_, ?_⟩
            · rw [e2]; exact started_mono hs
            · rw [e2, hyr]; simp
        live := fun s n c hh => by
          rcases q.live s n c hh with ⟨x, hx1, hx2, hx3⟩ | hh
          · by_cases hxy : x = y
            · subst hxy
              exact Or.inr ⟨ok, by rw [← hx2, hyr]; simp⟩
            · exact Or.inl ⟨x, (List.mem_erase_of_ne hxy).mpr hx1, hx2, hx3⟩
          · exact Or.inr hh }
  | get s r =>
    simp only [step]
    cases hx : lookup s st.sessions with
    | none => (refine inv_quiet i _ _ st.fs st.runno ?_ ?_ <;> simp)
    | some l =>
      simp only
      unfold getIn
      split_ifs with hl
      · cases hf : fetch r st.completed with
        | none => (refine inv_quiet i _ _ st.fs st.runno ?_ ?_ <;> simp)
        | some z =>
          simp only
          cases hz : st.fs z with
          | none => (refine inv_quiet i _ _ st.fs st.runno ?_ ?_ <;> simp)
          | some x =>
            simp only
            obtain ⟨g1, g2, _⟩ := erase_spec r st.completed st.fs i.cnodup
            have q := inv_quiet i (.get s r) (.file z x) st.fs st.runno (Nat.le_refl _) (by simp)
            exact { q with
              nodup := i.nodup.sublist ((List.Sublist.refl _).append (g2.map _))
              done := fun d hd => q.done d ((g1 d).mp hd).1 }
      · (refine inv_quiet i _ _ st.fs st.runno ?_ ?_ <;> simp)
  | close s =>
    simp only [step]
    cases hx : lookup s st.sessions with
    | none => (refine inv_quiet i _ _ st.fs st.runno ?_ ?_ <;> simp)
    | some l =>
      simp only
      obtain ⟨g1, g2, _⟩ := eraseAll_spec l st.completed st.fs i.cnodup
      have q := inv_quiet i (.close s) (.bool true) st.fs st.runno (Nat.le_refl _) (by simp)
      exact { q with
        nodup := i.nodup.sublist ((List.Sublist.refl _).append (g2.map _))
        done := fun d hd => q.done d ((g1 d).mp hd).1
        sess := fun s' l' hl n hn => by
          simp only [lookup_filter] at hl
          split_ifs at hl
          exact q.sess s' l' hl n hn
        open_ := fun s' n c hh hc => by
          have hne : s' ≠ s := by
            rintro rfl
            exact hc (.bool true) (by simp)
          simp only [lookup_filter, if_neg hne]
          exact q.open_ s' n c hh hc }

theorem inv_start (sim : Model.CmdLine.Sim) (fs0 : Folder C) : Inv sim (start fs0) ([] : History C) := by
  have hno : ∀ s n c, ¬ Started ([] : History C) s n c := by rintro s n c ⟨ms, free, h⟩; cases h
  refine { act := ?_, nodup := ?_, done := ?_, bound := ?_, uniq := ?_, nodot := ?_, sess := ?_, open_ := ?_, live := ?_ }
  · intro a ha; cases ha
  · exact List.nodup_nil
  · intro a ha; cases ha
  · intro s n c h; exact absurd h (hno _ _ _)
  · intro s s' n c c' h; exact absurd h (hno _ _ _)
  · intro s n c h; exact absurd h (hno _ _ _)
  · intro s l h; cases h
  · intro s n c h; exact absurd h (hno _ _ _)
  · intro s n c h; exact absurd h (hno _ _ _)

theorem inv_reach (sim : Model.CmdLine.Sim) (pack : List (Str × C) → C) (fs0 : Folder C) (as : List (Act C)) (hd : NoDot as) :
    Inv sim (exec sim pack (start fs0) as).1 (exec sim pack (start fs0) as).2 := by
  induction as using List.reverseRecOn with
  | nil => exact inv_start sim fs0
  | append_singleton as a ih =>
    rw [exec_snoc]
    refine inv_step (ih (fun s c ms free hm => hd s c ms free (List.mem_append.mpr (Or.inl hm)))) a ?_
    intro s c ms free hm
    exact hd s c ms free (List.mem_append.mpr (Or.inr hm))

/-! ### What an action changes -/

theorem changes_inv {sim : Model.CmdLine.Sim} {pack : List (Str × C) → C} {st : St C} {h : History C} (i : Inv sim st h) (a : Act C) (f : Str)
    (hf : (step sim pack st a).1.fs f ≠ st.fs f) : May h a f := by
  cases a with
  | start => exact absurd rfl hf
  | upload s ms =>
    simp only [step] at hf
    cases hx : lookup s st.sessions with
    | none => rw [hx] at hf; exact absurd rfl hf
    | some l =>
      rw [hx] at hf
      refine .sent _ _ ?_
      by_contra hh
      exact hf (extract_other ms st.fs f hh)
  | run s c ms free =>
    simp only [step] at hf
    cases hx : lookup s st.sessions with
    | none => rw [hx] at hf; exact absurd rfl hf
    | some l =>
      rw [hx] at hf
      simp only [runIn] at hf
      by_cases hs : f ∈ ms.map Prod.fst
      · exact .sent _ _ hs
      · have fresh : ∀ s' c', ¬ Started h s' (st.runno + 1) c' := fun s' c' hh => by have := (i.bound _ _ _ hh).2; omega
        have he := extract_other ms st.fs f hs
        by_cases hc : f = runFileName c (st.runno + 1)
        · rw [hc]; exact .copy s c ms free _ fresh
        · exfalso
          apply hf
          cases hx2 : extract ms st.fs c with
          | none => exact he
          | some x =>
            cases free with
            | true => exact (put_other hc _ _).trans he
            | false => exact (put_other hc _ _).trans he
  | write r g x =>
    simp only [step] at hf
    cases hx : st.active.find? (fun a => a.no = r) with
    | none => rw [hx] at hf; exact absurd rfl hf
    | some y =>
      rw [hx] at hf
      simp only at hf
      have hy : y ∈ st.active := List.mem_of_find?_eq_some hx
      have hyr : y.no = r := by simpa using List.find?_some hx
      split_ifs at hf with ho
      · obtain ⟨s, hs⟩ := (i.act y hy).2.2
        have hg : f = g := by
          by_contra hne
          exact hf (put_other hne _ _)
        subst hg
        rw [← hyr]
        exact .simulator s y.no y.source f x hs (own_fileOf (i.act y hy).1 ho)
      · exact absurd rfl hf
  | finish r ok =>
    simp only [step, finishRun] at hf
    cases hx : st.active.find? (fun a => a.no = r) with
    | none => rw [hx] at hf; exact absurd rfl hf
    | some y =>
      rw [hx] at hf
      have hy : y ∈ st.active := List.mem_of_find?_eq_some hx
      have hyr : y.no = r := by simpa using List.find?_some hx
      obtain ⟨s, hs⟩ := (i.act y hy).2.2
      obtain ⟨_, _, _, _, _, e6, _⟩ := end_eq sim pack y (i.act y hy).1 (i.act y hy).2.1 ok st.fs
      rw [← hyr]
      exact .finish s y.no ok y.source f hs (e6 f hf)
  | get s r =>
    simp only [step] at hf
    cases hx : lookup s st.sessions with
    | none => rw [hx] at hf; exact absurd rfl hf
    | some l =>
      rw [hx] at hf
      simp only [getIn] at hf
      split_ifs at hf with hl
      · cases hz : fetch r st.completed with
        | none => rw [hz] at hf; exact absurd rfl hf
        | some z =>
          rw [hz] at hf
          simp only at hf
          cases hc : st.fs z with
          | none => rw [hc] at hf; exact absurd rfl hf
          | some x =>
            rw [hc] at hf
            obtain ⟨_, _, g3, _⟩ := erase_spec r st.completed st.fs i.cnodup
            obtain ⟨d, hd, hdr, hdf⟩ := g3 f hf
            obtain ⟨c, ok, s', _, h2, h3, _⟩ := i.done d hd
            obtain ⟨c', hc'⟩ := i.sess s l hx r (by simpa using hl)
            rw [hdr] at h3
            have := (i.uniq _ _ _ _ _ h3 hc').2
            subst this
            refine .get s r c f hc' ?_
            rw [← hdr]
            exact done_files h2 hdf
      · exact absurd rfl hf
  | close s =>
    simp only [step] at hf
    cases hx : lookup s st.sessions with
    | none => rw [hx] at hf; exact absurd rfl hf
    | some l =>
      rw [hx] at hf
      obtain ⟨_, _, g3, _⟩ := eraseAll_spec l st.completed st.fs i.cnodup
      obtain ⟨d, hd, hdr, hdf⟩ := g3 f hf
      obtain ⟨c, ok, s', _, h2, h3, _⟩ := i.done d hd
      obtain ⟨c', hc'⟩ := i.sess s l hx d.no hdr
      have := (i.uniq _ _ _ _ _ h3 hc').2
      subst this
      exact .close s d.no c f hc' (done_files h2 hdf)

/-- C101: what a request or a simulation can change: files it sends, the copy of its circuit (under a number no other run has), files of the run that
is simulated, files of the runs of the session that fetches results or is closed. -/
theorem C101_changes (sim : Model.CmdLine.Sim) (pack : List (Str × C) → C) (fs0 : Folder C) (as : List (Act C)) (hd : NoDot as) (a : Act C) (f : Str)
    (hf : (step sim pack (exec sim pack (start fs0) as).1 a).1.fs f ≠ (exec sim pack (start fs0) as).1.fs f) :
    May (exec sim pack (start fs0) as).2 a f := changes_inv (inv_reach sim pack fs0 as hd) a f hf

theorem isolated_inv {sim : Model.CmdLine.Sim} {pack : List (Str × C) → C} {st : St C} {h : History C} (i : Inv sim st h) (s n : Nat) (c f : Str)
    (hs : Started h s n c) (hf : FileOf c n f) (a : Act C) (hda : NoDot [a]) (h1 : ¬ Sends a f) (h2 : ¬ Simulates a n) (h3 : ∀ o, o = a → a ≠ .get s n ∧ a ≠ .close s) :
    (step sim pack st a).1.fs f = st.fs f := by
  by_contra hne
  have hm := changes_inv i a f hne
  have hnd := i.nodot _ _ _ hs
  cases hm with
  | sent _ _ hh => exact h1 hh
  | copy s' c' ms free m fresh =>
    have hc' : ∀ b, c' ≠ b ++ ['.'] := hda s' c' ms free (by simp)
    have := C84_runs_apart c c' n m hnd hc' _ hf .netlist
    exact fresh s c (this ▸ hs)
  | simulator s' m c' _ x hst hfo =>
    have := C84_runs_apart c c' n m hnd (i.nodot _ _ _ hst) _ hf hfo
    exact h2 this.symm
  | finish s' m ok c' _ hst hfo =>
    have := C84_runs_apart c c' n m hnd (i.nodot _ _ _ hst) _ hf hfo
    exact h2 this.symm
  | get s' m c' _ hst hfo =>
    have := C84_runs_apart c c' n m hnd (i.nodot _ _ _ hst) _ hf hfo
    subst this
    have := (i.uniq _ _ _ _ _ hs hst).1
    subst this
    exact (h3 _ rfl).1 rfl
  | close s' m c' _ hst hfo =>
    have := C84_runs_apart c c' n m hnd (i.nodot _ _ _ hst) _ hf hfo
    subst this
    have := (i.uniq _ _ _ _ _ hs hst).1
    subst this
    exact (h3 _ rfl).2 rfl

/-- C101: the files of a run are its own: no other run and no request of another session changes them, unless it sends a file of that very name. -/
theorem C101_isolated (sim : Model.CmdLine.Sim) (pack : List (Str × C) → C) (fs0 : Folder C) (as : List (Act C)) (a : Act C) (hd : NoDot (as ++ [a])) (s n : Nat) (c f : Str)
    (hs : Started (exec sim pack (start fs0) as).2 s n c) (hf : FileOf c n f) (h1 : ¬ Sends a f) (h2 : ¬ Simulates a n) (h3 : ¬ Speaks a s) :
    (step sim pack (exec sim pack (start fs0) as).1 a).1.fs f = (exec sim pack (start fs0) as).1.fs f := by
  refine isolated_inv (inv_reach sim pack fs0 as (fun s c ms free hm => hd s c ms free (List.mem_append.mpr (Or.inl hm)))) s n c f hs hf a
    (fun s c ms free hm => hd s c ms free (List.mem_append.mpr (Or.inr hm))) h1 h2 ?_
  rintro _ rfl
  constructor
  · rintro rfl; exact h3 rfl
  · rintro rfl; exact h3 rfl

/-- C101: a file that was sent (with a name that is not one of a run's files) keeps its content until a file of that name is sent again. -/
theorem C101_sources_stay (sim : Model.CmdLine.Sim) (pack : List (Str × C) → C) (fs0 : Folder C) (as bs : List (Act C)) (hd : NoDot (as ++ bs)) (f : Str)
    (hf : ∀ c n, ¬ FileOf c n f) (hs : ∀ a ∈ bs, ¬ Sends a f) :
    (exec sim pack (start fs0) (as ++ bs)).1.fs f = (exec sim pack (start fs0) as).1.fs f := by
  induction bs using List.reverseRecOn with
  | nil => rw [List.append_nil]
  | append_singleton bs b ih =>
    have hd' : NoDot (as ++ bs) := fun s c ms free hm => hd s c ms free (by
      rcases List.mem_append.mp hm with hm | hm
      · exact List.mem_append.mpr (Or.inl hm)
      · exact List.mem_append.mpr (Or.inr (List.mem_append.mpr (Or.inl hm))))
    rw [← ih hd' (fun a ha => hs a (List.mem_append.mpr (Or.inl ha))), ← List.append_assoc, exec_snoc]
    by_contra hne
    have hm := C101_changes sim pack fs0 (as ++ bs) hd' b f hne
    cases hm with
    | sent _ _ hh => exact hs b (by simp) hh
    | copy s' c' ms free m fresh => exact hf _ _ .netlist
    | simulator s' m c' _ x hst hfo => exact hf _ _ hfo
    | finish s' m ok c' _ hst hfo => exact hf _ _ hfo
    | get s' m c' _ hst hfo => exact hf _ _ hfo
    | close s' m c' _ hst hfo => exact hf _ _ hfo

/-! ### Sending -/

/-- C101: after files were sent in an open session, every one of them is in the folder with the content it was sent with (of several of one name, the last),
and no other file changed. In a session that is not open nothing changes. -/
theorem C101_upload (sim : Model.CmdLine.Sim) (pack : List (Str × C) → C) (st : St C) (s : Nat) (ms : List (Str × C)) :
    ((lookup s st.sessions).isSome → (step sim pack st (.upload s ms)).2 = .bool true ∧
      (∀ f c, LastMember ms f c → (step sim pack st (.upload s ms)).1.fs f = some c) ∧
      ∀ f, f ∉ ms.map Prod.fst → (step sim pack st (.upload s ms)).1.fs f = st.fs f) ∧
    (lookup s st.sessions = none → (step sim pack st (.upload s ms)) = (st, .bool false)) := by
  constructor
  · intro h
    obtain ⟨l, hl⟩ := Option.isSome_iff_exists.mp h
    simp only [step, hl]
    exact ⟨trivial, fun f c hf => extract_last ms st.fs f c hf, fun f hf => extract_other ms st.fs f hf⟩
  · intro h
    simp only [step, h]

/-- C101: the copy that is simulated has the content of the circuit sent with the request, whatever other sessions sent before under the same name; the other
files sent are in the folder, and nothing else changed. -/
theorem C101_circuit (sim : Model.CmdLine.Sim) (pack : List (Str × C) → C) (st : St C) (s : Nat) (c : Str) (ms : List (Str × C)) (x : C) (hs : (lookup s st.sessions).isSome)
    (hx : LastMember ms c x) :
    (step sim pack st (.run s c ms true)).2 = .runno (st.runno + 1) ∧
    (step sim pack st (.run s c ms true)).1.fs (runFileName c (st.runno + 1)) = some x ∧
    (∀ f y, LastMember ms f y → f ≠ runFileName c (st.runno + 1) → (step sim pack st (.run s c ms true)).1.fs f = some y) ∧
    ∀ f, f ∉ ms.map Prod.fst → f ≠ runFileName c (st.runno + 1) → (step sim pack st (.run s c ms true)).1.fs f = st.fs f := by
  obtain ⟨l, hl⟩ := Option.isSome_iff_exists.mp hs
  simp only [step, hl, runIn, extract_last ms st.fs c x hx, if_true]
  exact ⟨trivial, put_same _ _ _, fun f y hf hne => (put_other hne _ _).trans (extract_last ms st.fs f y hf),
    fun f hf hne => (put_other hne _ _).trans (extract_other ms st.fs f hf)⟩

/-! ### Results -/

theorem nodot_left {as bs : List (Act C)} (h : NoDot (as ++ bs)) : NoDot as := fun s c ms free hm => h s c ms free (List.mem_append.mpr (Or.inl hm))

/-- The end of a run that was not reported before. -/
theorem finished (sim : Model.CmdLine.Sim) (pack : List (Str × C) → C) {st : St C} {h : History C} (i : Inv sim st h) (s n : Nat) (c : Str) (ok : Bool)
    (hs : Started h s n c) (hn : ¬ Ended h n) :
    ∃ d, d ∈ (step sim pack st (.finish n ok)).1.completed ∧ (step sim pack st (.finish n ok)).2 = .moved ∧ d.no = n ∧
      (d.zip = if results sim st.fs c n ok = [] then none else some (archive c n)) ∧ d.circuit = runFileName c n ∧
      (∀ m ∈ results sim st.fs c n ok, m.1 ∈ d.files) ∧
      (results sim st.fs c n ok ≠ [] → (step sim pack st (.finish n ok)).1.fs (archive c n) = some (pack (results sim st.fs c n ok))) := by
  rcases i.live s n c hs with ⟨a, ha, hano, hac⟩ | hh
  · obtain ⟨y, hy⟩ : ∃ y, st.active.find? (fun a => a.no = n) = some y := by
      cases hf : st.active.find? (fun a => a.no = n) with
      | some y => exact ⟨y, rfl⟩
      | none => exact absurd hano (by simpa using List.find?_eq_none.mp hf a ha)
    have hya : y ∈ st.active := List.mem_of_find?_eq_some hy
    have hyn : y.no = n := by simpa using List.find?_some hy
    obtain ⟨s', hs'⟩ := (i.act y hya).2.2
    rw [hyn] at hs'
    have hyc : y.source = c := (i.uniq _ _ _ _ _ hs' hs).2
    obtain ⟨e1, e2, e3, e4, e5, _⟩ := end_eq sim pack y (i.act y hya).1 (i.act y hya).2.1 ok st.fs
    rw [hyc, hyn] at e3 e4 e5
    refine ⟨(endRun sim pack y ok st.fs).2, ?_, ?_, by rw [e2, hyn], e3, ?_, e5, ?_⟩
    · simp only [step, finishRun, hy]; exact List.mem_append.mpr (Or.inr List.mem_cons_self)
    · simp only [step, finishRun, hy]
    · rw [e1.circuit, e2, hyn, hyc]
    · simp only [step, finishRun, hy]; exact e4
  · exact absurd hh hn

/-- An entry stays until its results are fetched or its session is closed. -/
theorem entry_stays {sim : Model.CmdLine.Sim} {pack : List (Str × C) → C} {st : St C} {h : History C} (i : Inv sim st h) (s : Nat) (c : Str) (d : Done)
    (hs : Started h s d.no c) (hd : d ∈ st.completed) (a : Act C) (h1 : a ≠ .get s d.no) (h2 : a ≠ .close s) : d ∈ (step sim pack st a).1.completed := by
  cases a with
  | start => exact hd
  | upload s' ms => simp only [step]; split <;> exact hd
  | run s' c' ms free =>
    simp only [step]
    split
    · exact hd
    · simp only [runIn]; split
      · exact hd
      · split_ifs <;> exact hd
  | write r f x =>
    simp only [step]
    split
    · exact hd
    · split_ifs <;> exact hd
  | finish r ok =>
    simp only [step, finishRun]
    split
    · exact hd
    · exact List.mem_append.mpr (Or.inl hd)
  | get s' r =>
    simp only [step]
    cases hx : lookup s' st.sessions with
    | none => exact hd
    | some l =>
      simp only [getIn]
      split_ifs with hl
      · cases hz : fetch r st.completed with
        | none => exact hd
        | some z =>
          simp only
          cases hc : st.fs z with
          | none => exact hd
          | some x =>
            obtain ⟨g1, _⟩ := erase_spec r st.completed st.fs i.cnodup
            refine (g1 d).mpr ⟨hd, ?_⟩
            rintro rfl
            obtain ⟨c', hc'⟩ := i.sess s' l hx d.no (by simpa using hl)
            have := (i.uniq _ _ _ _ _ hs hc').1
            subst this
            exact h1 rfl
      · exact hd
  | close s' =>
    simp only [step]
    cases hx : lookup s' st.sessions with
    | none => exact hd
    | some l =>
      obtain ⟨g1, _⟩ := eraseAll_spec l st.completed st.fs i.cnodup
      refine (g1 d).mpr ⟨hd, ?_⟩
      intro hm
      obtain ⟨c', hc'⟩ := i.sess s' l hx d.no hm
      have := (i.uniq _ _ _ _ _ hs hc').1
      subst this
      exact h2 rfl

theorem started_exec {sim : Model.CmdLine.Sim} {pack : List (Str × C) → C} {st : St C} {as bs : List (Act C)} {s n : Nat} {c : Str}
    (h : Started (exec sim pack st as).2 s n c) : Started (exec sim pack st (as ++ bs)).2 s n c := by
  induction bs using List.reverseRecOn with
  | nil => rw [List.append_nil]; exact h
  | append_singleton bs b ih => rw [← List.append_assoc, exec_snoc]; exact started_mono ih

/-- From the end of a run to any later moment before its results are fetched or its session is closed. -/
theorem waiting (sim : Model.CmdLine.Sim) (pack : List (Str × C) → C) (fs0 : Folder C) (as bs : List (Act C)) (s n : Nat) (c : Str) (ok : Bool)
    (hd : NoDot (as ++ .finish n ok :: bs)) (hs : Started (exec sim pack (start fs0) as).2 s n c) (hn : ¬ Ended (exec sim pack (start fs0) as).2 n)
    (hb : ∀ a ∈ bs, a ≠ .get s n ∧ a ≠ .close s) :
    ∃ d, d ∈ (exec sim pack (start fs0) (as ++ .finish n ok :: bs)).1.completed ∧ d.no = n ∧
      (d.zip = if results sim (exec sim pack (start fs0) as).1.fs c n ok = [] then none else some (archive c n)) ∧ d.circuit = runFileName c n ∧
      (∀ m ∈ results sim (exec sim pack (start fs0) as).1.fs c n ok, m.1 ∈ d.files) ∧
      ((∀ a ∈ bs, ¬ Sends a (archive c n)) → results sim (exec sim pack (start fs0) as).1.fs c n ok ≠ [] →
        (exec sim pack (start fs0) (as ++ .finish n ok :: bs)).1.fs (archive c n) = some (pack (results sim (exec sim pack (start fs0) as).1.fs c n ok))) := by
  have hcons : as ++ .finish n ok :: bs = (as ++ [.finish n ok]) ++ bs := by simp
  rw [hcons] at hd ⊢
  induction bs using List.reverseRecOn with
  | nil =>
    rw [List.append_nil] at hd ⊢
    obtain ⟨d, h1, h2, h3, h4, h5, h6, h7⟩ := finished sim pack (inv_reach sim pack fs0 as (nodot_left hd)) s n c ok hs hn
    rw [exec_snoc]
    exact ⟨d, h1, h3, h4, h5, h6, fun _ => h7⟩
  | append_singleton bs b ih =>
    rw [← List.append_assoc] at hd ⊢
    obtain ⟨d, h1, h2, h3, h4, h5, h6⟩ := ih (nodot_left hd) (fun a ha => hb a (List.mem_append.mpr (Or.inl ha))) (by simp)
    have i := inv_reach sim pack fs0 _ (nodot_left hd)
    have hs' : Started (exec sim pack (start fs0) ((as ++ [.finish n ok]) ++ bs)).2 s n c := by
      rw [List.append_assoc]; exact started_exec hs
    rw [exec_snoc]
    have hbb := hb b (by simp)
    refine ⟨d, entry_stays i s c d (by rw [h2]; exact hs') h1 b (by rw [h2]; exact hbb.1) hbb.2, h2, h3, h4, h5, ?_⟩
    intro hsend hne
    rw [← h6 (fun a ha => hsend a (List.mem_append.mpr (Or.inl ha))) hne]
    by_cases hsim : Simulates b n
    · -- the run is over: its simulator does nothing any more
      have hact : ∀ a ∈ (exec sim pack (start fs0) ((as ++ [.finish n ok]) ++ bs)).1.active, a.no ≠ n := by
        intro a ha hh
        have := (List.nodup_append.mp i.nodup).2.2 a.no (List.mem_map.mpr ⟨a, ha, rfl⟩) d.no (List.mem_map.mpr ⟨d, h1, rfl⟩)
        exact this (by rw [hh, h2])
      have hfind : (exec sim pack (start fs0) ((as ++ [.finish n ok]) ++ bs)).1.active.find? (fun a => a.no = n) = none := by
        rw [List.find?_eq_none]
        intro a ha
        simpa using hact a ha
      cases b with
      | write r f x =>
        have : r = n := hsim
        subst this
        simp only [step, hfind]
      | finish r ok' =>
        have : r = n := hsim
        subst this
        simp only [step, finishRun, hfind]
      | start => exact absurd hsim id
      | upload _ _ => exact absurd hsim id
      | run _ _ _ _ => exact absurd hsim id
      | get _ _ => exact absurd hsim id
      | close _ => exact absurd hsim id
    · exact isolated_inv i s n c _ hs' (of_zip c n) b (fun s c ms free hm => hd s c ms free (List.mem_append.mpr (Or.inr hm))) (hsend b (by simp)) hsim
        (fun _ _ => hbb)

theorem close_mem {sim : Model.CmdLine.Sim} {pack : List (Str × C) → C} {st : St C} {as : List (Act C)} {s : Nat} (h : Act.close s ∉ as) (o : Out C) :
    (Act.close s, o) ∉ (exec sim pack st as).2 := by
  intro hm
  apply h
  rw [← exec_acts sim pack st as]
  exact List.mem_map.mpr ⟨_, hm, rfl⟩

/-- C101: the results of a run. When its simulation ends, the files it left then (waveforms and log; only the log, renamed, if the simulation failed) are packed;
however long it takes and whatever others do until the session asks for them (provided nobody sends a file with the name of the archive), it gets exactly those; then
the copy of the circuit, the files packed and the archive are deleted. When the simulation left nothing, it gets nothing. -/
theorem C101_results (sim : Model.CmdLine.Sim) (pack : List (Str × C) → C) (fs0 : Folder C) (as bs : List (Act C)) (s n : Nat) (c : Str) (ok : Bool)
    (hd : NoDot (as ++ .finish n ok :: bs)) (hs : Started (exec sim pack (start fs0) as).2 s n c) (hn : ¬ Ended (exec sim pack (start fs0) as).2 n)
    (hb : ∀ a ∈ bs, a ≠ .get s n ∧ ¬ Sends a (archive c n)) (hc : Act.close s ∉ as ++ bs) :
    (results sim (exec sim pack (start fs0) as).1.fs c n ok ≠ [] →
      (step sim pack (exec sim pack (start fs0) (as ++ .finish n ok :: bs)).1 (.get s n)).2 =
        .file (archive c n) (pack (results sim (exec sim pack (start fs0) as).1.fs c n ok)) ∧
      ∀ f, f = runFileName c n ∨ f = archive c n ∨ f ∈ (results sim (exec sim pack (start fs0) as).1.fs c n ok).map Prod.fst →
        (step sim pack (exec sim pack (start fs0) (as ++ .finish n ok :: bs)).1 (.get s n)).1.fs f = none) ∧
    (results sim (exec sim pack (start fs0) as).1.fs c n ok = [] →
      (step sim pack (exec sim pack (start fs0) (as ++ .finish n ok :: bs)).1 (.get s n)) =
        ((exec sim pack (start fs0) (as ++ .finish n ok :: bs)).1, .noFile)) := by
  have hcl : ∀ a ∈ bs, a ≠ .close s := by
    rintro a ha rfl; exact hc (List.mem_append.mpr (Or.inr ha))
  obtain ⟨d, h1, h2, h3, h4, h5, h6⟩ := waiting sim pack fs0 as bs s n c ok hd hs hn (fun a ha => ⟨(hb a ha).1, hcl a ha⟩)
  have i := inv_reach sim pack fs0 _ hd
  have hs' : Started (exec sim pack (start fs0) (as ++ .finish n ok :: bs)).2 s n c := started_exec hs
  obtain ⟨l, hl, hnl⟩ := i.open_ s n c hs' (close_mem (by
    intro hm
    rcases List.mem_append.mp hm with hm | hm
    · exact hc (List.mem_append.mpr (Or.inl hm))
    · rcases List.mem_cons.mp hm with hm | hm
      · cases hm
      · exact hc (List.mem_append.mpr (Or.inr hm))))
  have hf := (fetch_spec n _ i.cnodup).2 d h1 h2
  constructor
  · intro hne
    have hz := h6 (fun a ha => (hb a ha).2) hne
    rw [if_neg hne] at h3
    rw [h3] at hf
    have hcon : l.contains n = true := by simpa using hnl
    simp only [step, hl, getIn, hcon, if_true, hf, hz]
    refine ⟨trivial, ?_⟩
    obtain ⟨_, _, _, g4, _⟩ := erase_spec n (exec sim pack (start fs0) (as ++ .finish n ok :: bs)).1.completed (exec sim pack (start fs0) (as ++ .finish n ok :: bs)).1.fs i.cnodup
    intro f hh
    refine g4 d h1 h2 f ?_
    rcases hh with rfl | rfl | hh
    · rw [← h4]; simp [Done.files]
    · simp [Done.files, h3]
    · obtain ⟨m, hm, rfl⟩ := List.mem_map.mp hh
      exact h5 m hm
  · intro he
    rw [if_pos he] at h3
    rw [h3] at hf
    have hcon : l.contains n = true := by simpa using hnl
    simp only [step, hl, getIn, hcon, if_true, hf]

/-- C101: closing a session deletes the copies of the circuits, the results and the archives of all its runs that have ended and were not fetched. -/
theorem C101_close (sim : Model.CmdLine.Sim) (pack : List (Str × C) → C) (fs0 : Folder C) (as bs : List (Act C)) (s n : Nat) (c : Str) (ok : Bool)
    (hd : NoDot (as ++ .finish n ok :: bs)) (hs : Started (exec sim pack (start fs0) as).2 s n c) (hn : ¬ Ended (exec sim pack (start fs0) as).2 n)
    (hb : ∀ a ∈ bs, a ≠ .get s n) (hc : Act.close s ∉ as ++ bs) (f : Str)
    (hf : f = runFileName c n ∨ (results sim (exec sim pack (start fs0) as).1.fs c n ok ≠ [] ∧ f = archive c n) ∨
      f ∈ (results sim (exec sim pack (start fs0) as).1.fs c n ok).map Prod.fst) :
    (step sim pack (exec sim pack (start fs0) (as ++ .finish n ok :: bs)).1 (.close s)).1.fs f = none := by
  have hcl : ∀ a ∈ bs, a ≠ .close s := by
    rintro a ha rfl; exact hc (List.mem_append.mpr (Or.inr ha))
  obtain ⟨d, h1, h2, h3, h4, h5, _⟩ := waiting sim pack fs0 as bs s n c ok hd hs hn (fun a ha => ⟨hb a ha, hcl a ha⟩)
  have i := inv_reach sim pack fs0 _ hd
  have hs' : Started (exec sim pack (start fs0) (as ++ .finish n ok :: bs)).2 s n c := started_exec hs
  obtain ⟨l, hl, hnl⟩ := i.open_ s n c hs' (close_mem (by
    intro hm
    rcases List.mem_append.mp hm with hm | hm
    · exact hc (List.mem_append.mpr (Or.inl hm))
    · rcases List.mem_cons.mp hm with hm | hm
      · cases hm
      · exact hc (List.mem_append.mpr (Or.inr hm))))
  obtain ⟨_, _, _, g4, _⟩ := eraseAll_spec l (exec sim pack (start fs0) (as ++ .finish n ok :: bs)).1.completed (exec sim pack (start fs0) (as ++ .finish n ok :: bs)).1.fs i.cnodup
  simp only [step, hl]
  refine g4 d h1 (by rw [h2]; exact hnl) f ?_
  rcases hf with rfl | ⟨hne, rfl⟩ | hh
  · rw [← h4]; simp [Done.files]
  · rw [if_neg hne] at h3; simp [Done.files, h3]
  · obtain ⟨m, hm, rfl⟩ := List.mem_map.mp hh
    exact h5 m hm

/-! ### What is in the folder -/

theorem ended_snoc {h : History C} {e : Act C × Out C} {n : Nat} : Ended (h ++ [e]) n ↔ Ended h n ∨ ∃ ok, e = (.finish n ok, .moved) := by
  unfold Ended
  constructor
  · rintro ⟨ok, hm⟩
    rcases List.mem_append.mp hm with hm | hm
    · exact Or.inl ⟨ok, hm⟩
    · exact Or.inr ⟨ok, (List.mem_singleton.mp hm).symm⟩
  · rintro (⟨ok, hm⟩ | ⟨ok, rfl⟩)
    · exact ⟨ok, List.mem_append.mpr (Or.inl hm)⟩
    · exact ⟨ok, by simp⟩

theorem dropped_snoc {h : History C} {e : Act C × Out C} {s n : Nat} (hd : Dropped (h ++ [e]) s n) :
    Dropped h s n ∨ (∃ z x, e = (.get s n, .file z x)) ∨ (e = (.close s, .bool true) ∧ Ended h n) := by
  rcases hd with ⟨z, x, hm⟩ | ⟨h1, h2, heq, hen⟩
  · rcases List.mem_append.mp hm with hm | hm
    · exact Or.inl (Or.inl ⟨z, x, hm⟩)
    · exact Or.inr (Or.inl ⟨z, x, (List.mem_singleton.mp hm).symm⟩)
  · rcases List.eq_nil_or_concat h2 with rfl | ⟨t, y, rfl⟩
    · have := List.append_inj' heq (by simp)
      obtain ⟨rfl, h3⟩ := this
      exact Or.inr (Or.inr ⟨(List.cons.inj h3).1, hen⟩)
    · rw [List.concat_eq_append, ← List.cons_append, ← List.append_assoc] at heq
      have := List.append_inj' heq (by simp)
      obtain ⟨rfl, _⟩ := this
      exact Or.inl (Or.inr ⟨h1, t, rfl, hen⟩)

/-- More of what holds after every history. -/
structure Inv2 (st : St C) (h : History C) : Prop where
  keys : ∀ e ∈ st.sessions, e.1 < st.nextSession
  gone : ∀ s, (Act.close s, Out.bool true) ∈ h → lookup s st.sessions = none ∧ s < st.nextSession
  act : ∀ a ∈ st.active, ¬ Ended h a.no
  done : ∀ d ∈ st.completed, ∀ s c, Started h s d.no c → ¬ Dropped h s d.no
  fin : ∀ n, Ended h n → ∃ s c, Started h s n c
  lt : ∀ s n c, Started h s n c → s < st.nextSession
  conn : ∀ s n c l, Started h s n c → lookup s st.sessions = some l → n ∈ l
  got : ∀ s n z x, (Act.get s n, Out.file z x) ∈ h → Ended h n

theorem lookup_lt {s : Nat} {l : List Nat} {ss : List (Nat × List Nat)} {k : Nat} (hk : ∀ e ∈ ss, e.1 < k) (h : lookup s ss = some l) : s < k := by
  induction ss with
  | nil => cases h
  | cons e t ih =>
    obtain ⟨a, b⟩ := e
    unfold lookup at h
    split_ifs at h with ha
    · rw [← ha]; exact hk _ List.mem_cons_self
    · exact ih (fun e he => hk e (List.mem_cons_of_mem _ he)) h

theorem keys_push (s r : Nat) (ss : List (Nat × List Nat)) : (push s r ss).map Prod.fst = ss.map Prod.fst := by
  induction ss with
  | nil => rfl
  | cons e t ih =>
    obtain ⟨a, b⟩ := e
    unfold push
    split_ifs
    · rfl
    · simp only [List.map_cons, ih]

theorem inv2_quiet {st : St C} {h : History C} (j : Inv2 st h) (a : Act C) (o : Out C) (fs : Folder C) (k : Nat)
    (ho : ∀ n, o ≠ .runno n) (h1 : ¬ (∃ s, a = .close s ∧ o = .bool true)) (h2 : o ≠ .moved) (h3 : ∀ z x, o ≠ .file z x) :
    Inv2 { st with fs := fs, runno := k } (h ++ [(a, o)]) := by
  have hst : ∀ {s n c}, Started (h ++ [(a, o)]) s n c → Started h s n c := by
    intro s n c hs
    rcases started_snoc.mp hs with hs | ⟨_, hs⟩
    · exact hs
    · exact absurd hs (ho _)
  have hen : ∀ {n}, Ended (h ++ [(a, o)]) n → Ended h n := by
    intro n he
    rcases ended_snoc.mp he with he | ⟨ok, he⟩
    · exact he
    · injection he with _ he; exact absurd he h2
  exact {
    keys := j.keys
    gone := fun s hm => by
      rcases List.mem_append.mp hm with hm | hm
      · exact j.gone s hm
      · simp only [List.mem_singleton, Prod.mk.injEq] at hm
        exact absurd ⟨s, hm.1.symm, hm.2.symm⟩ h1
    act := fun x hx he => j.act x hx (hen he)
    done := fun d hd s c hs hdr => by
      rcases dropped_snoc hdr with hdr | ⟨z, x, hdr⟩ | ⟨hdr, _⟩
      · exact j.done d hd s c (hst hs) hdr
      · injection hdr with _ hdr; exact h3 z x hdr
      · injection hdr with hdr hdr2; exact h1 ⟨s, hdr, hdr2⟩
    fin := fun n he => by
      obtain ⟨s, c, hs⟩ := j.fin n (hen he)
      exact ⟨s, c, started_mono hs⟩
    lt := fun s n c hs => j.lt s n c (hst hs)
    conn := fun s n c l hs hl => j.conn s n c l (hst hs) hl
    got := fun s n z x hm => by
      rcases List.mem_append.mp hm with hm | hm
      · exact ended_mono (j.got s n z x hm)
      · simp only [List.mem_singleton, Prod.mk.injEq] at hm
        exact absurd hm.2.symm (h3 z x) }

theorem inv2_get {st : St C} {h : History C} (j : Inv2 st h) (s r : Nat) (z : Str) (x : C) (hr : Ended h r) (l : List Done)
    (hl : ∀ d, d ∈ l ↔ d ∈ st.completed ∧ d.no ≠ r) (fs : Folder C) : Inv2 { st with completed := l, fs := fs } (h ++ [(.get s r, .file z x)]) := by
  have hst : ∀ {s' n c}, Started (h ++ [(Act.get s r, Out.file z x)]) s' n c → Started h s' n c := by
    intro s' n c hs
    rcases started_snoc.mp hs with hs | ⟨_, hs⟩
    · exact hs
    · cases hs
  have hen : ∀ {n}, Ended (h ++ [(Act.get s r, Out.file z x)]) n → Ended h n := by
    intro n he
    rcases ended_snoc.mp he with he | ⟨ok, he⟩
    · exact he
    · cases he
  exact {
    keys := j.keys
    gone := fun s hm => by
      rcases List.mem_append.mp hm with hm | hm
      · exact j.gone s hm
      · simp at hm
    act := fun x hx he => j.act x hx (hen he)
    done := fun d hd s' c hs hdr => by
      obtain ⟨hd1, hd2⟩ := (hl d).mp hd
      rcases dropped_snoc hdr with hdr | ⟨z', x', hdr⟩ | ⟨hdr, _⟩
      · exact j.done d hd1 s' c (hst hs) hdr
      · injection hdr with hdr _
        injection hdr with _ hdr
        exact hd2 hdr.symm
      · cases hdr
    fin := fun n he => by
      obtain ⟨s, c, hs⟩ := j.fin n (hen he)
      exact ⟨s, c, started_mono hs⟩
    lt := fun s n c hs => j.lt s n c (hst hs)
    conn := fun s n c l hs hl => j.conn s n c l (hst hs) hl
    got := fun s' n z' x' hm => by
      rcases List.mem_append.mp hm with hm | hm
      · exact ended_mono (j.got s' n z' x' hm)
      · simp only [List.mem_singleton, Prod.mk.injEq, Act.get.injEq] at hm
        rw [hm.1.2]; exact ended_mono hr }

theorem inv2_step {sim : Model.CmdLine.Sim} {pack : List (Str × C) → C} {st : St C} {h : History C} (i : Inv sim st h) (j : Inv2 st h) (a : Act C) :
    Inv2 (step sim pack st a).1 (h ++ [(a, (step sim pack st a).2)]) := by
  cases a with
  | start =>
    have q := inv2_quiet j .start (.session st.nextSession) st.fs st.runno (by simp) (by simp) (by simp) (by simp)
    exact { q with
      keys := fun e he => by
        rcases List.mem_append.mp he with he | he
        · exact Nat.lt_succ_of_lt (j.keys e he)
        · simp only [List.mem_singleton] at he; rw [he]; exact Nat.lt_succ_self _
      gone := fun s hm => by
        have := q.gone s hm
        refine ⟨?_, Nat.lt_succ_of_lt this.2⟩
        simp only [step, lookup_append]
        rw [this.1, Option.none_or, if_neg]
        exact fun he => Nat.lt_irrefl _ (he ▸ this.2)
      lt := fun s n c hs => Nat.lt_succ_of_lt (q.lt s n c hs)
      conn := fun s n c l hs hl => by
        simp only [step, lookup_append] at hl
        cases hx : lookup s st.sessions with
        | some l' =>
          rw [hx] at hl
          injection hl with hl
          subst hl
          exact q.conn s n c l' hs hx
        | none =>
          rw [hx, Option.none_or] at hl
          split_ifs at hl with he
          have := q.lt s n c hs
          exact absurd he (Nat.ne_of_gt this) }
  | upload s ms =>
    simp only [step]
    cases hx : lookup s st.sessions with
    | none => refine inv2_quiet j _ _ st.fs st.runno ?_ ?_ ?_ ?_ <;> simp
    | some l => refine inv2_quiet j _ _ _ st.runno ?_ ?_ ?_ ?_ <;> simp
  | run s c ms free =>
    simp only [step]
    cases hx : lookup s st.sessions with
    | none => refine inv2_quiet j _ _ st.fs st.runno ?_ ?_ ?_ ?_ <;> simp
    | some l =>
      simp only [runIn]
      cases hf : extract ms st.fs c with
      | none => refine inv2_quiet j _ _ _ _ ?_ ?_ ?_ ?_ <;> simp
      | some x =>
        cases free with
        | false => refine inv2_quiet j _ _ _ _ ?_ ?_ ?_ ?_ <;> simp
        | true =>
          simp only [if_true]
          have fresh : ∀ s' c', ¬ Started h s' (st.runno + 1) c' := fun s' c' hh => by have := (i.bound _ _ _ hh).2; omega
          have hen : ∀ {n}, Ended (h ++ [(Act.run s c ms true, Out.runno (st.runno + 1))]) n → Ended h n := by
            intro n he
            rcases ended_snoc.mp he with he | ⟨ok, he⟩
            · exact he
            · cases he
          refine { keys := ?_, gone := ?_, act := ?_, done := ?_, fin := ?_, lt := ?_, conn := ?_, got := ?_ }
          · intro e he
            have : e.1 ∈ (push s (st.runno + 1) st.sessions).map Prod.fst := List.mem_map.mpr ⟨e, he, rfl⟩
            rw [keys_push] at this
            obtain ⟨e', he', heq⟩ := List.mem_map.mp this
            rw [← heq]; exact j.keys e' he'
          · intro s' hm
            rcases List.mem_append.mp hm with hm | hm
            · have := j.gone s' hm
              refine ⟨?_, this.2⟩
              simp only [lookup_push, this.1]
              split_ifs <;> rfl
            · simp at hm
          · intro y hy he
            rcases List.mem_append.mp hy with hy | hy
            · exact j.act y hy (hen he)
            · simp only [List.mem_singleton] at hy
              subst hy
              obtain ⟨s', c', hh⟩ := j.fin _ (hen he)
              exact fresh s' c' hh
          · intro d hd s' c' hs' hdr
            have hs2 : Started h s' d.no c' := by
              rcases started_snoc.mp hs' with hh | ⟨_, hh⟩
              · exact hh
              · obtain ⟨c2, ok, s2, _, _, h3, _⟩ := i.done d hd
                injection hh with hh
                exact absurd (hh ▸ h3) (fresh s2 c2)
            rcases dropped_snoc hdr with hdr | ⟨z, x, hdr⟩ | ⟨hdr, _⟩
            · exact j.done d hd s' c' hs2 hdr
            · cases hdr
            · cases hdr
          · intro n he
            obtain ⟨s', c', hs'⟩ := j.fin n (hen he)
            exact ⟨s', c', started_mono hs'⟩
          · intro s' n c' hs'
            rcases started_snoc.mp hs' with hh | ⟨⟨ms', fr, hh⟩, _⟩
            · exact j.lt s' n c' hh
            · injection hh with hh
              rw [← hh]; exact lookup_lt j.keys hx
          · intro s' n c' l' hs' hl'
            simp only [lookup_push] at hl'
            rcases started_snoc.mp hs' with hh | ⟨⟨ms', fr, hh⟩, hn⟩
            · split_ifs at hl' with hss
              · subst hss
                rw [hx] at hl'
                simp only [Option.map_some, Option.some.injEq] at hl'
                rw [← hl']
                exact List.mem_append.mpr (Or.inl (j.conn s' n c' l hh hx))
              · exact j.conn s' n c' l' hh hl'
            · injection hh with hh; injection hn with hn
              rw [if_pos hh.symm, ← hh, hx] at hl'
              simp only [Option.map_some, Option.some.injEq] at hl'
              rw [← hl', hn]
              simp
          · intro s' n z x hm
            rcases List.mem_append.mp hm with hm | hm
            · exact ended_mono (j.got s' n z x hm)
            · simp at hm
  | write r f x =>
    simp only [step]
    cases hx : st.active.find? (fun a => a.no = r) with
    | none => refine inv2_quiet j _ _ st.fs st.runno ?_ ?_ ?_ ?_ <;> simp
    | some y =>
      simp only
      split_ifs
      · refine inv2_quiet j _ _ _ st.runno ?_ ?_ ?_ ?_ <;> simp
      · refine inv2_quiet j _ _ st.fs st.runno ?_ ?_ ?_ ?_ <;> simp
  | finish r ok =>
    simp only [step, finishRun]
    cases hx : st.active.find? (fun a => a.no = r) with
    | none => refine inv2_quiet j _ _ st.fs st.runno ?_ ?_ ?_ ?_ <;> simp
    | some y =>
      simp only
      have hy : y ∈ st.active := List.mem_of_find?_eq_some hx
      have hyr : y.no = r := by simpa using List.find?_some hx
      obtain ⟨s0, hs0⟩ := (i.act y hy).2.2
      obtain ⟨_, e2, _⟩ := end_eq sim pack y (i.act y hy).1 (i.act y hy).2.1 ok st.fs
      have hst : ∀ {s n c}, Started (h ++ [(Act.finish r ok, Out.moved)]) s n c → Started h s n c := by
        intro s n c hs
        rcases started_snoc.mp hs with hs | ⟨_, hs⟩
        · exact hs
        · cases hs
      have hdp : ∀ {s n}, Dropped (h ++ [(Act.finish r ok, Out.moved)]) s n → Dropped h s n := by
        intro s n hdr
        rcases dropped_snoc hdr with hdr | ⟨z, x, hdr⟩ | ⟨hdr, _⟩
        · exact hdr
        · cases hdr
        · cases hdr
      refine { keys := j.keys, gone := ?_, act := ?_, done := ?_, fin := ?_, lt := fun s n c hs => j.lt s n c (hst hs),
               conn := fun s n c l hs hl => j.conn s n c l (hst hs) hl,
               got := fun s n z x hm => by
                 rcases List.mem_append.mp hm with hm | hm
                 · exact ended_mono (j.got s n z x hm)
                 · simp at hm }
      · intro s hm
        rcases List.mem_append.mp hm with hm | hm
        · exact j.gone s hm
        · simp at hm
      · intro x hx2 he
        have hxa : x ∈ st.active := List.mem_of_mem_erase hx2
        rcases ended_snoc.mp he with he | ⟨ok', he⟩
        · exact j.act x hxa he
        · injection he with he _
          injection he with he _
          -- x has the number of y, which is not in the rest
          have hnd := (List.nodup_append.mp i.nodup).1
          have p1 : (st.active.map Active.no).Perm (y.no :: (st.active.erase y).map Active.no) := (List.perm_cons_erase hy).map Active.no
          have := (List.nodup_cons.mp (p1.nodup_iff.mp hnd)).1
          exact this (List.mem_map.mpr ⟨x, hx2, by rw [← he, hyr]⟩)
      · intro d hd s c hs hdr
        rcases List.mem_append.mp hd with hd | hd
        · exact j.done d hd s c (hst hs) (hdp hdr)
        · simp only [List.mem_singleton] at hd
          subst hd
          rw [e2] at hdr hs
          rcases hdp hdr with ⟨z, x, hm⟩ | ⟨h1, h2, heq, hen⟩
          · -- results are not fetched before the end
            exact j.act y hy (j.got s _ z x hm)
          · exact j.act y hy (by
              obtain ⟨ok', hm⟩ := hen
              exact ⟨ok', by rw [heq]; exact List.mem_append.mpr (Or.inl hm)⟩)
      · intro n he
        rcases ended_snoc.mp he with he | ⟨ok', he⟩
        · obtain ⟨s, c, hs⟩ := j.fin n he
          exact ⟨s, c, started_mono hs⟩
        · injection he with he _
          injection he with he _
          exact ⟨s0, y.source, by rw [← he, ← hyr]; exact started_mono hs0⟩
  | get s r =>
    simp only [step]
    cases hx : lookup s st.sessions with
    | none => refine inv2_quiet j _ _ st.fs st.runno ?_ ?_ ?_ ?_ <;> simp
    | some l =>
      simp only [getIn]
      split_ifs with hl
      · cases hf : fetch r st.completed with
        | none => refine inv2_quiet j _ _ st.fs st.runno ?_ ?_ ?_ ?_ <;> simp
        | some z =>
          simp only
          cases hz : st.fs z with
          | none => refine inv2_quiet j _ _ st.fs st.runno ?_ ?_ ?_ ?_ <;> simp
          | some x =>
            simp only
            obtain ⟨g1, g2, _⟩ := erase_spec r st.completed st.fs i.cnodup
            have q := inv2_get j s r z x (by
              obtain ⟨d, hd, hdr, _⟩ := (fetch_spec r st.completed i.cnodup).1 z hf
              obtain ⟨_, ok, _, _, _, _, hm⟩ := i.done d hd
              rw [hdr] at hm
              exact ⟨ok, hm⟩) (erase r st.completed st.fs).1 g1 (erase r st.completed st.fs).2
            exact q
      · refine inv2_quiet j _ _ st.fs st.runno ?_ ?_ ?_ ?_ <;> simp
  | close s =>
    simp only [step]
    cases hx : lookup s st.sessions with
    | none => refine inv2_quiet j _ _ st.fs st.runno ?_ ?_ ?_ ?_ <;> simp
    | some l =>
      simp only
      obtain ⟨g1, g2, _⟩ := eraseAll_spec l st.completed st.fs i.cnodup
      have hst : ∀ {s' n c}, Started (h ++ [(Act.close s, Out.bool true)]) s' n c → Started h s' n c := by
        intro s' n c hs
        rcases started_snoc.mp hs with hs | ⟨_, hs⟩
        · exact hs
        · cases hs
      have hen : ∀ {n}, Ended (h ++ [(Act.close s, Out.bool true)]) n → Ended h n := by
        intro n he
        rcases ended_snoc.mp he with he | ⟨ok, he⟩
        · exact he
        · cases he
      refine { keys := ?_, gone := ?_, act := fun x hx he => j.act x hx (hen he), done := ?_, fin := ?_, lt := fun s n c hs => j.lt s n c (hst hs),
               conn := ?_, got := ?_ }
      · intro e he; exact j.keys e (List.mem_of_mem_filter he)
      · intro s' hm
        rcases List.mem_append.mp hm with hm | hm
        · have := j.gone s' hm
          exact ⟨by simp only [lookup_filter, this.1]; split_ifs <;> rfl, this.2⟩
        · simp only [List.mem_singleton, Prod.mk.injEq, Act.close.injEq] at hm
          refine ⟨by simp only [lookup_filter, if_pos hm.1], ?_⟩
          rw [hm.1]; exact lookup_lt j.keys hx
      · intro d hd s' c hs hdr
        obtain ⟨hd1, hd2⟩ := (g1 d).mp hd
        rcases dropped_snoc hdr with hdr | ⟨z, x, hdr⟩ | ⟨hdr, _⟩
        · exact j.done d hd1 s' c (hst hs) hdr
        · cases hdr
        · injection hdr with hdr _
          injection hdr with hdr
          rw [← hdr] at hs
          exact hd2 (j.conn s d.no c l (hst hs) hx)
      · intro n he
        obtain ⟨s', c', hs'⟩ := j.fin n (hen he)
        exact ⟨s', c', started_mono hs'⟩
      · intro s' n c l' hs hl
        simp only [lookup_filter] at hl
        split_ifs at hl
        exact j.conn s' n c l' (hst hs) hl
      · intro s' n z x hm
        rcases List.mem_append.mp hm with hm | hm
        · exact ended_mono (j.got s' n z x hm)
        · simp at hm

theorem inv2_reach (sim : Model.CmdLine.Sim) (pack : List (Str × C) → C) (fs0 : Folder C) (as : List (Act C)) (hd : NoDot as) :
    Inv2 (exec sim pack (start fs0) as).1 (exec sim pack (start fs0) as).2 := by
  induction as using List.reverseRecOn with
  | nil =>
    have hno : ∀ s n c, ¬ Started ([] : History C) s n c := by rintro s n c ⟨ms, free, h⟩; cases h
    refine { keys := ?_, gone := ?_, act := ?_, done := ?_, fin := ?_, lt := ?_, conn := ?_, got := ?_ }
    · intro e he; cases he
    · intro s hm; cases hm
    · intro a ha; cases ha
    · intro d hd; cases hd
    · rintro n ⟨ok, hm⟩; cases hm
    · intro s n c hs; exact absurd hs (hno _ _ _)
    · intro s n c l hs; exact absurd hs (hno _ _ _)
    · intro s n z x hm; cases hm
  | append_singleton as a ih =>
    rw [exec_snoc]
    exact inv2_step (inv_reach sim pack fs0 as (nodot_left hd)) (ih (nodot_left hd)) a

/-- Why a file is there, in terms of the state. -/
inductive Why (sim : Model.CmdLine.Sim) (fs0 : Folder C) (st : St C) (h : History C) (f : Str) : Prop
  | first : fs0 f ≠ none → Why sim fs0 st h f
  | sent (a : Act C) (o : Out C) : (a, o) ∈ h → Sends a f → Why sim fs0 st h f
  | refused (s : Nat) (c : Str) (ms : List (Str × C)) (free : Bool) (n : Nat) : (Act.run s c ms free, Out.refused) ∈ h → f = runFileName c n → Why sim fs0 st h f
  | extra (s n : Nat) (c : Str) (x : Option C) (o : Out C) : Started h s n c → (Act.write n f x, o) ∈ h → FileOf c n f → f ≠ runFileName c n →
      f ≠ runStem c n ++ ".log".toList → (f = runStem c n ++ sim.rawExtension → (Act.finish n false, Out.moved) ∈ h) → Why sim fs0 st h f
  | active (a : Active) : a ∈ st.active → (f = a.circuit ∨ ∃ x o, (Act.write a.no f x, o) ∈ h) → FileOf a.source a.no f → Why sim fs0 st h f
  | done (d : Done) : d ∈ st.completed → f ∈ d.files → Why sim fs0 st h f

theorem mem_snoc {h : History C} {e : Act C × Out C} {x : Act C × Out C} (hx : x ∈ h) : x ∈ h ++ [e] := List.mem_append.mpr (Or.inl hx)

/-- The reasons that stay, and those that may end. -/
theorem why_mono {sim : Model.CmdLine.Sim} {fs0 : Folder C} {st st' : St C} {h : History C} {f : Str} (e : Act C × Out C) (w : Why sim fs0 st h f)
    (ha : ∀ a ∈ st.active, (f = a.circuit ∨ ∃ x o, (Act.write a.no f x, o) ∈ h) → FileOf a.source a.no f → Why sim fs0 st' (h ++ [e]) f)
    (hd : ∀ d ∈ st.completed, f ∈ d.files → Why sim fs0 st' (h ++ [e]) f) : Why sim fs0 st' (h ++ [e]) f := by
  cases w with
  | first h1 => exact .first h1
  | sent a o h1 h2 => exact .sent a o (mem_snoc h1) h2
  | refused s c ms free n h1 h2 => exact .refused s c ms free n (mem_snoc h1) h2
  | extra s n c x o h1 h2 h3 h4 h5 h6 => exact .extra s n c x o (started_mono h1) (mem_snoc h2) h3 h4 h5 (fun hh => mem_snoc (h6 hh))
  | active a h1 h2 h3 => exact ha a h1 h2 h3
  | done d h1 h2 => exact hd d h1 h2

theorem why_keep {sim : Model.CmdLine.Sim} {fs0 : Folder C} {st st' : St C} {h : History C} {f : Str} (e : Act C × Out C) (w : Why sim fs0 st h f)
    (ha : ∀ a ∈ st.active, a ∈ st'.active) (hd : ∀ d ∈ st.completed, d ∈ st'.completed) : Why sim fs0 st' (h ++ [e]) f :=
  why_mono e w (fun a h1 h2 h3 => .active a (ha a h1) (h2.imp id (fun ⟨x, o, hm⟩ => ⟨x, o, mem_snoc hm⟩)) h3) (fun d h1 h2 => .done d (hd d h1) h2)

theorem why_step {sim : Model.CmdLine.Sim} {pack : List (Str × C) → C} {fs0 : Folder C} {st : St C} {h : History C} (i : Inv sim st h)
    (w : ∀ f, st.fs f ≠ none → Why sim fs0 st h f) (a : Act C) (f : Str) (hf : (step sim pack st a).1.fs f ≠ none) :
    Why sim fs0 (step sim pack st a).1 (h ++ [(a, (step sim pack st a).2)]) f := by
  have ext : ∀ {ms : List (Str × C)}, f ∉ ms.map Prod.fst → extract ms st.fs f ≠ none → st.fs f ≠ none := by
    intro ms hm hx
    rwa [extract_other _ _ _ hm] at hx
  cases a with
  | start => exact why_keep _ (w f hf) (fun _ h => h) (fun _ h => h)
  | upload s ms =>
    by_cases hm : f ∈ ms.map Prod.fst
    · exact .sent _ _ (List.mem_append.mpr (Or.inr List.mem_cons_self)) hm
    · simp only [step] at hf ⊢
      cases hx : lookup s st.sessions with
      | none => rw [hx] at hf; exact why_keep _ (w f hf) (fun _ h => h) (fun _ h => h)
      | some l => rw [hx] at hf; exact why_keep _ (w f (ext hm hf)) (fun _ h => h) (fun _ h => h)
  | run s c ms free =>
    by_cases hm : f ∈ ms.map Prod.fst
    · exact .sent _ _ (List.mem_append.mpr (Or.inr List.mem_cons_self)) hm
    · simp only [step] at hf ⊢
      cases hx : lookup s st.sessions with
      | none => rw [hx] at hf; exact why_keep _ (w f hf) (fun _ h => h) (fun _ h => h)
      | some l =>
        rw [hx] at hf
        simp only [runIn] at hf ⊢
        cases hx2 : extract ms st.fs c with
        | none => rw [hx2] at hf; exact why_keep _ (w f (ext hm hf)) (fun _ h => h) (fun _ h => h)
        | some x =>
          rw [hx2] at hf
          cases free with
          | false =>
            simp only [Bool.false_eq_true, if_false] at hf ⊢
            by_cases hc : f = runFileName c (st.runno + 1)
            · exact .refused s c ms false _ (List.mem_append.mpr (Or.inr List.mem_cons_self)) hc
            · rw [put_other hc] at hf
              exact why_keep _ (w f (ext hm hf)) (fun _ h => h) (fun _ h => h)
          | true =>
            simp only [if_true] at hf ⊢
            by_cases hc : f = runFileName c (st.runno + 1)
            · refine .active ⟨st.runno + 1, c, runFileName c (st.runno + 1)⟩ (List.mem_append.mpr (Or.inr List.mem_cons_self)) (Or.inl hc) ?_
              rw [hc]; exact .netlist
            · rw [put_other hc] at hf
              exact why_keep _ (w f (ext hm hf)) (fun _ h => List.mem_append.mpr (Or.inl h)) (fun _ h => h)
  | write r g x =>
    simp only [step] at hf ⊢
    cases hx : st.active.find? (fun a => a.no = r) with
    | none => rw [hx] at hf; exact why_keep _ (w f hf) (fun _ h => h) (fun _ h => h)
    | some y =>
      rw [hx] at hf
      simp only at hf ⊢
      have hy : y ∈ st.active := List.mem_of_find?_eq_some hx
      have hyr : y.no = r := by simpa using List.find?_some hx
      split_ifs at hf ⊢ with ho
      · by_cases hg : f = g
        · subst hg
          refine .active y hy (Or.inr ⟨x, .none, ?_⟩) (own_fileOf (i.act y hy).1 ho)
          rw [hyr]; exact List.mem_append.mpr (Or.inr List.mem_cons_self)
        · have hf : put g x st.fs f ≠ none := hf
          rw [put_other hg] at hf
          exact why_keep _ (w f hf) (fun _ h => h) (fun _ h => h)
      · exact why_keep _ (w f hf) (fun _ h => h) (fun _ h => h)
  | finish r ok =>
    simp only [step, finishRun] at hf ⊢
    cases hx : st.active.find? (fun a => a.no = r) with
    | none => rw [hx] at hf; exact why_keep _ (w f hf) (fun _ h => h) (fun _ h => h)
    | some y =>
      rw [hx] at hf
      simp only at hf ⊢
      have hy : y ∈ st.active := List.mem_of_find?_eq_some hx
      have hyr : y.no = r := by simpa using List.find?_some hx
      obtain ⟨s0, hs0⟩ := (i.act y hy).2.2
      obtain ⟨e1, e2, _, _, _, _, e7, e8⟩ := end_eq sim pack y (i.act y hy).1 (i.act y hy).2.1 ok st.fs
      rcases e7 f hf with hold | hnew
      · refine why_mono _ (w f hold) ?_ (fun d h1 h2 => .done d (List.mem_append.mpr (Or.inl h1)) h2)
        intro b hb hwhy hfo
        by_cases hby : b = y
        · subst hby
          by_cases hin : f ∈ (endRun sim pack b ok st.fs).2.files
          · exact .done _ (List.mem_append.mpr (Or.inr List.mem_cons_self)) hin
          · have hcirc : f ≠ runFileName b.source b.no := by
              intro hh
              apply hin
              have := e1.circuit
              rw [e2] at this
              simp [Done.files, hh, this]
            have hlog : f ≠ runStem b.source b.no ++ ".log".toList := by
              intro hh
              cases ok with
              | false => rw [hh, e8 rfl] at hf; exact hf rfl
              | true =>
                rcases e1.log with h1 | ⟨h1, _⟩
                · apply hin
                  rw [e2] at h1
                  simp only [Done.files, List.mem_append, List.mem_cons]
                  exact Or.inl (Or.inl (Or.inr (Or.inl (hh.trans h1.symm))))
                · cases h1
            have hwr : ∃ x o, (Act.write b.no f x, o) ∈ h := by
              rcases hwhy with hh | hh
              · exact absurd (hh.trans (i.act b hy).1) hcirc
              · exact hh
            obtain ⟨x, o, hwr⟩ := hwr
            refine .extra s0 b.no b.source x o (started_mono hs0) (mem_snoc hwr) hfo hcirc hlog ?_
            intro hraw
            cases ok with
            | false => rw [hyr]; exact List.mem_append.mpr (Or.inr List.mem_cons_self)
            | true =>
              exfalso
              apply hin
              have h1 := e1.raw
              rw [e2] at h1
              simp only [if_true] at h1
              simp only [Done.files, List.mem_append, Option.mem_toList]
              exact Or.inl (Or.inr (by rw [h1, hraw]))
        · exact .active b ((List.mem_erase_of_ne hby).mpr hb) (hwhy.imp id (fun ⟨x, o, hm⟩ => ⟨x, o, mem_snoc hm⟩)) hfo
      · exact .done _ (List.mem_append.mpr (Or.inr List.mem_cons_self)) hnew
  | get s r =>
    simp only [step] at hf ⊢
    cases hx : lookup s st.sessions with
    | none => rw [hx] at hf; exact why_keep _ (w f hf) (fun _ h => h) (fun _ h => h)
    | some l =>
      rw [hx] at hf
      simp only [getIn] at hf ⊢
      split_ifs at hf ⊢ with hl
      · cases hz : fetch r st.completed with
        | none => rw [hz] at hf; exact why_keep _ (w f hf) (fun _ h => h) (fun _ h => h)
        | some z =>
          rw [hz] at hf
          simp only at hf ⊢
          cases hc : st.fs z with
          | none => rw [hc] at hf; exact why_keep _ (w f hf) (fun _ h => h) (fun _ h => h)
          | some x =>
            rw [hc] at hf
            simp only at hf ⊢
            obtain ⟨g1, _, _, g4, g5⟩ := erase_spec r st.completed st.fs i.cnodup
            refine why_mono _ (w f (fun hh => hf (g5 f hh)))
              (fun a h1 h2 h3 => .active a h1 (h2.imp id (fun ⟨x, o, hm⟩ => ⟨x, o, mem_snoc hm⟩)) h3) (fun d h1 h2 => ?_)
            by_cases hdr : d.no = r
            · exact absurd (g4 d h1 hdr f h2) hf
            · exact .done d ((g1 d).mpr ⟨h1, hdr⟩) h2
      · exact why_keep _ (w f hf) (fun _ h => h) (fun _ h => h)
  | close s =>
    simp only [step] at hf ⊢
    cases hx : lookup s st.sessions with
    | none => rw [hx] at hf; exact why_keep _ (w f hf) (fun _ h => h) (fun _ h => h)
    | some l =>
      rw [hx] at hf
      simp only at hf ⊢
      obtain ⟨g1, _, _, g4, g5⟩ := eraseAll_spec l st.completed st.fs i.cnodup
      refine why_mono _ (w f (fun hh => hf (g5 f hh)))
        (fun a h1 h2 h3 => .active a h1 (h2.imp id (fun ⟨x, o, hm⟩ => ⟨x, o, mem_snoc hm⟩)) h3) (fun d h1 h2 => ?_)
      by_cases hdr : d.no ∈ l
      · exact absurd (g4 d h1 hdr f h2) hf
      · exact .done d ((g1 d).mpr ⟨h1, hdr⟩) h2

/-- C101: nothing piles up unnoticed: every file in the folder was there first, was sent by a client, belongs to a run whose results are still to be fetched, is
the copy of a circuit that could not be started, or is a file the simulator wrote beyond the circuit, the log and (if it succeeded) the waveforms. -/
theorem C101_what_is_there (sim : Model.CmdLine.Sim) (pack : List (Str × C) → C) (fs0 : Folder C) (as : List (Act C)) (hd : NoDot as) (f : Str)
    (hf : (exec sim pack (start fs0) as).1.fs f ≠ none) : Reason sim fs0 (exec sim pack (start fs0) as).2 f := by
  have hw : ∀ f, (exec sim pack (start fs0) as).1.fs f ≠ none → Why sim fs0 (exec sim pack (start fs0) as).1 (exec sim pack (start fs0) as).2 f := by
    clear hf f
    induction as using List.reverseRecOn with
    | nil => exact fun f hf => .first hf
    | append_singleton as a ih =>
      intro f hf
      rw [exec_snoc] at hf ⊢
      exact why_step (inv_reach sim pack fs0 as (nodot_left hd)) (ih (nodot_left hd)) a f hf
  have i := inv_reach sim pack fs0 as hd
  have j := inv2_reach sim pack fs0 as hd
  cases hw f hf with
  | first h1 => exact .first h1
  | sent a o h1 h2 => exact .sent a o h1 h2
  | refused s c ms free n h1 h2 => exact .refused s c ms free n h1 h2
  | extra s n c x o h1 h2 h3 h4 h5 h6 => exact .extra s n c x o h1 h2 h3 h4 h5 h6
  | active a h1 h2 h3 =>
    obtain ⟨s, hs⟩ := (i.act a h1).2.2
    refine .run s a.no a.source hs ?_ h3
    rintro (⟨z, x, hm⟩ | ⟨h4, h5, heq, ok, hen⟩)
    · exact j.act a h1 (j.got s a.no z x hm)
    · exact j.act a h1 ⟨ok, by rw [heq]; exact List.mem_append.mpr (Or.inl hen)⟩
  | done d h1 h2 =>
    obtain ⟨c, ok, s, _, h3, h4, _⟩ := i.done d h1
    exact .run s d.no c h4 (j.done d h1 s c h4) (done_files h3 h2)

/-! ### Stopping the server -/

theorem endAll_frame (sim : Model.CmdLine.Sim) (pack : List (Str × C) → C) (ok : Nat → Bool) (as : List Active) (fs : Folder C) (f : Str)
    (ha : ∀ a ∈ as, a.circuit = runFileName a.source a.no ∧ (∀ b, a.source ≠ b ++ ['.'])) (hf : ∀ a ∈ as, ¬ FileOf a.source a.no f) :
    (endAll sim pack ok as fs).1 f = fs f ∧ ∀ d ∈ (endAll sim pack ok as fs).2, ∃ a ∈ as, ∃ k, DoneOf sim a.source k d ∧ d.no = a.no := by
  induction as generalizing fs with
  | nil => exact ⟨rfl, by intro d hd; cases hd⟩
  | cons a as ih =>
    obtain ⟨e1, e2, _, _, _, e6, _⟩ := end_eq sim pack a (ha a List.mem_cons_self).1 (ha a List.mem_cons_self).2 (ok a.no) fs
    obtain ⟨h1, h2⟩ := ih (endRun sim pack a (ok a.no) fs).1 (fun b hb => ha b (List.mem_cons_of_mem _ hb)) (fun b hb => hf b (List.mem_cons_of_mem _ hb))
    refine ⟨?_, ?_⟩
    · show (endAll sim pack ok as (endRun sim pack a (ok a.no) fs).1).1 f = _
      rw [h1]
      by_contra hne
      exact hf a List.mem_cons_self (e6 f hne)
    · intro d hd
      have hd' : d ∈ (endRun sim pack a (ok a.no) fs).2 :: (endAll sim pack ok as (endRun sim pack a (ok a.no) fs).1).2 := hd
      rcases List.mem_cons.mp hd' with rfl | hd'
      · exact ⟨a, List.mem_cons_self, ok a.no, e1, e2⟩
      · obtain ⟨b, hb, hh⟩ := h2 d hd'
        exact ⟨b, List.mem_cons_of_mem _ hb, hh⟩

/-- C101 limit: when the server is stopped, the files of runs that ended before and whose results were not fetched stay in the folder. -/
theorem C101_limit_stop (sim : Model.CmdLine.Sim) (pack : List (Str × C) → C) (fs0 : Folder C) (as : List (Act C)) (hd : NoDot as) (s n : Nat) (c f : Str)
    (hs : Started (exec sim pack (start fs0) as).2 s n c) (he : Ended (exec sim pack (start fs0) as).2 n) (hf : FileOf c n f) (ok : Nat → Bool) :
    shutdown sim pack (exec sim pack (start fs0) as).1 ok f = (exec sim pack (start fs0) as).1.fs f := by
  have i := inv_reach sim pack fs0 as hd
  have j := inv2_reach sim pack fs0 as hd
  have hne : ∀ a ∈ (exec sim pack (start fs0) as).1.active, ¬ FileOf a.source a.no f := by
    intro a ha hh
    have := C84_runs_apart _ _ _ _ (i.act a ha).2.1 (i.nodot _ _ _ hs) f hh hf
    exact j.act a ha (this ▸ he)
  obtain ⟨h1, h2⟩ := endAll_frame sim pack ok _ (exec sim pack (start fs0) as).1.fs f (fun a ha => ⟨(i.act a ha).1, (i.act a ha).2.1⟩) hne
  show Model.Cleanup.cleanup ((endAll sim pack ok (exec sim pack (start fs0) as).1.active (exec sim pack (start fs0) as).1.fs).2.map asTask)
    (fun p => (endAll sim pack ok (exec sim pack (start fs0) as).1.active (exec sim pack (start fs0) as).1.fs).1 p.name) ⟨false, [], f⟩ = _
  rw [(Props.Cleanup.cleanup_hit _ _ _).2]
  · exact h1
  · rintro ⟨t, ht, hit⟩
    obtain ⟨d, hd', rfl⟩ := List.mem_map.mp ht
    obtain ⟨a, ha, k, hk, hno⟩ := h2 d hd'
    apply hne a ha
    rw [← hno]
    have hcd := hk.circuit
    have hnd := (i.act a ha).2.1
    have hws : ∀ e : Str, (Model.Cleanup.withSuffix (asTask d).netlist e).name = runStem a.source d.no ++ e := by
      intro e
      unfold asTask Model.Cleanup.withSuffix runStem
      dsimp only
      rw [hcd, splitExt_runFileName _ _ hnd]
    have hb : ∀ e : Str, '_' ∉ e → (⟨false, [], f⟩ : Model.Cleanup.Path) = Model.Cleanup.withSuffix (asTask d).netlist ('.' :: e) → FileOf a.source d.no f := by
      intro e he hh
      have := congrArg Model.Cleanup.Path.name hh
      rw [hws] at this
      dsimp only at this
      rw [this]
      exact .beside e he
    rcases hit with hh | hh | hh | hh | ⟨_, hh | hh | hh | ⟨_, hh⟩⟩
    · have := congrArg Model.Cleanup.Path.name hh
      exact done_files hk (by simp only [asTask] at this; simp [Done.files, this])
    · unfold asTask at hh
      dsimp only at hh
      injection hh with hh
      have := congrArg Model.Cleanup.Path.name hh
      exact done_files hk (by dsimp only at this; simp [Done.files, this])
    · exact hb "exe.log".toList (by decide) hh
    · unfold asTask at hh
      dsimp only at hh
      cases hr : d.raw with
      | none => rw [hr] at hh; cases hh
      | some r =>
        rw [hr] at hh
        injection hh with hh
        have := congrArg Model.Cleanup.Path.name hh
        exact done_files hk (by dsimp only at this; simp [Done.files, hr, this])
    · exact hb "log.raw".toList (by decide) hh
    · exact hb "op.raw".toList (by decide) hh
    · exact hb "db".toList (by decide) hh
    · exact hb "net".toList (by decide) hh

/-! ### Limits, a sample -/

/-- A packing of contents that are numbers. -/
def sum (ms : List (Str × Nat)) : Nat := ms.foldl (fun k m => 100 * k + m.2) 0

def net : Str := "a.net".toList
def lib : Str := "x.lib".toList

/-- Two sessions; both send a library of one name, and simulate circuits of one name. -/
def two : List (Act Nat) :=
  [.start, .start, .upload 0 [(lib, 1)], .run 0 net [(net, 2)] true, .upload 1 [(lib, 3)], .run 1 net [(net, 4)] true,
   .write 1 "a_1.raw".toList (some 5), .write 1 "a_1.log".toList (some 6), .write 2 "a_2.raw".toList (some 7), .write 2 "a_2.log".toList (some 8), .finish 2 true]

theorem C101_sample : Started (exec .xyce sum (start (fun _ => none)) two).2 0 1 net ∧ ¬ Ended (exec .xyce sum (start (fun _ => none)) two).2 1 ∧
    results .xyce (exec .xyce sum (start (fun _ => none)) two).1.fs net 1 true = [("a_1.raw".toList, 5), ("a_1.log".toList, 6)] ∧
    (exec .xyce sum (start (fun _ => none)) two).1.fs "a_1.net".toList = some 2 ∧
    (exec .xyce sum (start (fun _ => none)) two).1.fs "a_2.net".toList = some 4 ∧
    (step .xyce sum (exec .xyce sum (start (fun _ => none)) (two ++ [.finish 1 true])).1 (.get 0 1)).2 = .file "a_1.zip".toList 506 ∧
    (step .xyce sum (exec .xyce sum (start (fun _ => none)) (two ++ [.finish 1 false])).1 (.get 0 1)).2 = .file "a_1.zip".toList 6 ∧
    (step .xyce sum (exec .xyce sum (start (fun _ => none)) two).1 (.get 0 2)).2 = .noFile := by
  refine ⟨⟨[(net, 2)], true, ?_⟩, ?_, ?_, ?_, ?_, ?_, ?_, ?_⟩
  · decide +kernel
  · rintro ⟨ok, hm⟩
    cases ok
    · revert hm; decide +kernel
    · revert hm; decide +kernel
  all_goals decide +kernel

/-- C101 limit: the folder is shared: the library one session sent is replaced by the one of the same name that another session sends, also for simulations that are
under way. -/
theorem C101_limit_shared : (exec .xyce sum (start (fun _ => none)) (two.take 4)).1.fs lib = some 1 ∧
    (exec .xyce sum (start (fun _ => none)) two).1.fs lib = some 3 ∧ (⟨1, net, "a_1.net".toList⟩ : Active) ∈ (exec .xyce sum (start (fun _ => none)) two).1.active := by
  refine ⟨?_, ?_, ?_⟩ <;> decide +kernel

/-- C101 limit: a file sent with the name of another session's archive replaces the results. -/
theorem C101_limit_archive : (step .xyce sum (exec .xyce sum (start (fun _ => none)) (two ++ [.finish 1 true, .upload 1 [("a_1.zip".toList, 9)]])).1 (.get 0 1)).2 =
    .file "a_1.zip".toList 9 := by decide +kernel

/-- C101 limit: left in the folder for good: the waveforms of a simulation that failed, other files of the simulator, the copy of a circuit that found no
place, and the files of a run that was still being simulated when its session was closed. -/
theorem C101_limit_left :
    (exec .xyce sum (start (fun _ => none)) (two ++ [.finish 1 false, .get 0 1])).1.fs "a_1.raw".toList = some 5 ∧
    (exec .xyce sum (start (fun _ => none)) (two ++ [.write 1 "a_1.op.raw".toList (some 1), .finish 1 true, .get 0 1])).1.fs "a_1.op.raw".toList = some 1 ∧
    (exec .xyce sum (start (fun _ => none)) (two ++ [.run 0 net [(net, 2)] false, .close 0])).1.fs "a_3.net".toList = some 2 ∧
    (exec .xyce sum (start (fun _ => none)) (two ++ [.close 0, .finish 1 true, .get 0 1, .close 0])).1.fs "a_1.raw".toList = some 5 := by
  refine ⟨?_, ?_, ?_, ?_⟩ <;> decide +kernel

/-- C101 limit: a circuit whose name ends with a dot: the files of its runs are not told apart. -/
theorem C101_limit_dot : withSuffix (runFileName "a.".toList 1) ".log".toList = withSuffix (runFileName "a.".toList 2) ".log".toList := by decide +kernel

end Props.ServerFiles
