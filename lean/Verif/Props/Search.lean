import Verif.Model.Search
import Verif.Spec.Files
/-
C43: encoding detection. C44: file search.
-/
namespace Props.Search
open Model.Search Spec.Files Model.PyStr

/-! ### C43 -/

/-- The encoding reads the file as a text that is not empty, has the expected pattern, and does not look like UTF-16 read as
UTF-8 (a null character in second place). -/
def Admissible (decode : Enc → Option Str) (pattern : Option (Str → Bool)) (e : Enc) : Prop :=
  ∃ t : Str, decode e = some t ∧ t ≠ [] ∧ (∀ p : Str → Bool, pattern = some p → p t = true) ∧
    (e = .utf8 → t[1]? ≠ some (Char.ofNat 0))

/-- The file does not consist of one character of UTF-8 that has the expected pattern. -/
def NotOneChar (decode : Enc → Option Str) (pattern : Option (Str → Bool)) : Prop :=
  ¬ ∃ c : Char, decode .utf8 = some [c] ∧ ∀ p : Str → Bool, pattern = some p → p [c] = true

theorem any_iff (pattern : Option (Str → Bool)) (t : Str) :
    pattern.any (fun p => !p t) = false ↔ ∀ p : Str → Bool, pattern = some p → p t = true := by
  cases pattern with
  | none => simp
  | some p => simp

theorem detectFrom_spec (decode : Enc → Option Str) (pattern : Option (Str → Bool)) (h : NotOneChar decode pattern) (l : List Enc) :
    (∀ e : Enc, detectFrom decode pattern l = .ok e ↔
      ∃ a b : List Enc, l = a ++ e :: b ∧ Admissible decode pattern e ∧ ∀ x ∈ a, ¬ Admissible decode pattern x) ∧
    (∀ x : DErr, detectFrom decode pattern l = .error x ↔ x = .detect ∧ ∀ e ∈ l, ¬ Admissible decode pattern e) := by
  induction l with
  | nil =>
    refine ⟨fun e => ?_, fun x => ?_⟩
    · simp [detectFrom]
    · simp [detectFrom]; exact eq_comm
  | cons e es ih =>
    obtain ⟨ih1, ih2⟩ := ih
    -- either the encoding is admissible and is the answer, or it is not and the rest decides
    have key : (Admissible decode pattern e ∧ detectFrom decode pattern (e :: es) = .ok e) ∨
        (¬ Admissible decode pattern e ∧ detectFrom decode pattern (e :: es) = detectFrom decode pattern es) := by
      simp only [detectFrom]
      cases hd : decode e with
      | none => right; exact ⟨fun ⟨t, h1, _⟩ => (by rw [hd] at h1; simp at h1), rfl⟩
      | some t =>
        cases t with
        | nil => right; exact ⟨fun ⟨t, h1, h2, _⟩ => (by rw [hd] at h1; exact h2 (Option.some.inj h1).symm), rfl⟩
        | cons c cs =>
          simp only
          cases hp : pattern.any (fun p => !p (c :: cs)) with
          | true =>
            right
            refine ⟨fun ⟨t, h1, _, h3, _⟩ => ?_, by simp⟩
            rw [hd] at h1
            have : t = c :: cs := (Option.some.inj h1).symm
            subst this
            rw [(any_iff pattern _).mpr h3] at hp; simp at hp
          | false =>
            rw [any_iff] at hp
            by_cases hu : e = .utf8
            · subst hu
              cases cs with
              | nil => exact absurd ⟨c, hd, hp⟩ h
              | cons d ds =>
                by_cases h0 : d = Char.ofNat 0
                · right
                  refine ⟨fun ⟨t, h1, _, _, h4⟩ => ?_, by simp [h0]⟩
                  rw [hd] at h1
                  have : t = c :: d :: ds := (Option.some.inj h1).symm
                  subst this
                  exact h4 rfl (by simp [h0])
                · left
                  refine ⟨⟨c :: d :: ds, hd, by simp, hp, fun _ => by simp [h0]⟩, by simp [h0]⟩
            · left
              refine ⟨⟨c :: cs, hd, by simp, hp, fun he => absurd he hu⟩, by simp [hu]⟩
    rcases key with ⟨ha, he⟩ | ⟨ha, he⟩
    · refine ⟨fun e' => ?_, fun x => ?_⟩
      · rw [he]
        constructor
        · intro h'; cases h'; exact ⟨[], es, rfl, ha, by simp⟩
        · rintro ⟨a, b, hl, hb, hn⟩
          cases a with
          | nil => simp at hl; rw [hl.1]
          | cons y ys => simp at hl; exact absurd ha (hl.1 ▸ hn y (by simp))
      · rw [he]; simp only [reduceCtorEq, false_iff]
        rintro ⟨_, hn⟩; exact hn e (by simp) ha
    · refine ⟨fun e' => ?_, fun x => ?_⟩
      · rw [he, ih1]
        constructor
        · rintro ⟨a, b, hl, hb, hn⟩
          exact ⟨e :: a, b, by rw [hl]; rfl, hb, by simp only [List.mem_cons]; exact fun x hx => hx.elim (fun h => h ▸ ha) (hn x)⟩
        · rintro ⟨a, b, hl, hb, hn⟩
          cases a with
          | nil => simp at hl; exact absurd hb (hl.1 ▸ ha)
          | cons y ys => simp at hl; exact ⟨ys, b, hl.2, hb, fun x hx => hn x (by simp [hx])⟩
      · rw [he, ih2]; simp [ha]

/-- C43: the answer is the first admissible encoding of utf-8, utf-16, utf_16_le, windows-1252, cp1252, cp1250, shift_jis.
(Files of one character: see the next but one theorem.) -/
theorem C43_first_admissible (decode : Enc → Option Str) (pattern : Option (Str → Bool)) (h : NotOneChar decode pattern) (e : Enc) :
    detect decode pattern = .ok e ↔
      ∃ a b : List Enc, [Enc.utf8, .utf16, .utf16le, .windows1252, .cp1252, .cp1250, .shiftJis] = a ++ e :: b ∧
        Admissible decode pattern e ∧ ∀ x ∈ a, ¬ Admissible decode pattern x :=
  (detectFrom_spec decode pattern h order).1 e

/-- C43: EncodingDetectError is raised exactly when no encoding is admissible, and nothing else is raised. -/
theorem C43_raises_iff_none (decode : Enc → Option Str) (pattern : Option (Str → Bool)) (h : NotOneChar decode pattern) (x : DErr) :
    detect decode pattern = .error x ↔ x = .detect ∧ ∀ e : Enc, ¬ Admissible decode pattern e := by
  rw [show detect decode pattern = detectFrom decode pattern order from rfl, (detectFrom_spec decode pattern h order).2 x]
  constructor
  · rintro ⟨h1, h2⟩; exact ⟨h1, fun e => h2 e (by cases e <;> simp [order])⟩
  · rintro ⟨h1, h2⟩; exact ⟨h1, fun e _ => h2 e⟩

/-- C43: whatever the file, an encoding that is returned is admissible: the file can be read with it, and the text has the
expected pattern. -/
theorem C43_answer_reads_file (decode : Enc → Option Str) (pattern : Option (Str → Bool)) (e : Enc)
    (h : detect decode pattern = .ok e) : Admissible decode pattern e := by
  have go : ∀ l : List Enc, detectFrom decode pattern l = .ok e → Admissible decode pattern e := by
    intro l
    induction l with
    | nil => intro h; simp [detectFrom] at h
    | cons x xs ih =>
      intro h
      unfold detectFrom at h
      cases hd : decode x with
      | none => rw [hd] at h; exact ih h
      | some t =>
        rw [hd] at h
        cases t with
        | nil => exact ih h
        | cons c cs =>
          simp only at h
          cases hp : pattern.any (fun p => !p (c :: cs)) with
          | true => rw [hp] at h; exact ih h
          | false =>
            rw [hp] at h
            rw [any_iff] at hp
            simp only [Bool.false_eq_true, if_false] at h
            by_cases hu : x = .utf8
            · rw [if_pos hu] at h
              cases cs with
              | nil => simp at h
              | cons d ds =>
                simp only at h
                by_cases h0 : d = Char.ofNat 0
                · rw [if_pos h0] at h; exact ih h
                · rw [if_neg h0] at h; cases h
                  exact ⟨c :: d :: ds, hd, by simp, hp, fun _ => by simp [h0]⟩
            · rw [if_neg hu] at h; cases h
              exact ⟨c :: cs, hd, by simp, hp, fun he => absurd he hu⟩
  exact go _ h

/-- C43 (finding): a file of one character (in UTF-8) that fits the pattern cannot be opened: IndexError. -/
theorem C43_one_char (decode : Enc → Option Str) (pattern : Option (Str → Bool)) (c : Char)
    (hd : decode .utf8 = some [c]) (hp : ∀ p : Str → Bool, pattern = some p → p [c] = true) :
    detect decode pattern = .error .index := by
  rw [← any_iff] at hp
  simp [detect, order, detectFrom, hd, hp]

/-- … although UTF-8 reads it. -/
theorem C43_one_char_witness :
    ∃ decode : Enc → Option Str, Admissible decode none .utf8 ∧ detect decode none = .error .index := by
  refine ⟨fun _ => some ['a'], ⟨['a'], rfl, by simp, by simp, by simp⟩, rfl⟩

/-- C43: a file that starts with two characters of UTF-8 other than null and has the pattern is taken as UTF-8, whatever else
it could be. -/
theorem C43_utf8_preferred (decode : Enc → Option Str) (pattern : Option (Str → Bool)) (c d : Char) (t : Str)
    (hd : decode .utf8 = some (c :: d :: t)) (h0 : d ≠ Char.ofNat 0) (hp : ∀ p : Str → Bool, pattern = some p → p (c :: d :: t) = true) :
    detect decode pattern = .ok .utf8 := by
  rw [← any_iff] at hp
  simp [detect, order, detectFrom, hd, hp, h0]

example : NotOneChar (fun e => if e = .utf8 then none else some ['a', 'b']) (some (fun t => t.head? = some 'a')) ∧
    detect (fun e => if e = .utf16 ∨ e = .utf8 then none else some ['a', 'b']) (some (fun t => t.head? = some 'a')) = .ok .utf16le := by
  exact ⟨by simp [NotOneChar], rfl⟩

/-! ### C44 -/

/-- Induction over directory trees. -/
theorem find_some (name : Str) : ∀ (t : Dir) (p : List Str), t.find name = some p →
    ∃ (q : List Str) (f : Str), p = q ++ [f] ∧ Holds t p ∧ lower f = lower name := by
  apply Dir.rec (motive_1 := fun t => ∀ p : List Str, t.find name = some p →
      ∃ (q : List Str) (f : Str), p = q ++ [f] ∧ Holds t p ∧ lower f = lower name)
    (motive_2 := fun ds => ∀ p : List Str, findDirs name ds = some p →
      ∃ (d : Str) (t : Dir) (q : List Str) (f : Str), (d, t) ∈ ds ∧ p = d :: (q ++ [f]) ∧ Holds t (q ++ [f]) ∧ lower f = lower name)
    (motive_3 := fun dt => ∀ p : List Str, dt.2.find name = some p →
      ∃ (q : List Str) (f : Str), p = q ++ [f] ∧ Holds dt.2 p ∧ lower f = lower name)
  · intro files dirs ih p h
    unfold Dir.find at h
    cases hf : files.find? (fun f => lower name = lower f) with
    | some f =>
      rw [hf] at h; simp only [Option.some.injEq] at h; subst h
      have hm := List.mem_of_find?_eq_some hf
      have he := List.find?_some hf
      exact ⟨[], f, rfl, .here hm, (by simpa using he : lower name = lower f).symm⟩
    | none =>
      rw [hf] at h
      obtain ⟨d, t, q, f, h1, h2, h3, h4⟩ := ih p h
      exact ⟨d :: q, f, by rw [h2]; rfl, by rw [h2]; exact .inside h1 h3, h4⟩
  · intro p h; simp [findDirs] at h
  · rintro ⟨d, t⟩ ds ih1 ih2 p h
    unfold findDirs at h
    cases ht : t.find name with
    | some r =>
      rw [ht] at h; simp only [Option.some.injEq] at h; subst h
      obtain ⟨q, f, h1, h2, h3⟩ := ih1 r ht
      subst h1
      exact ⟨d, t, q, f, by simp, rfl, h2, h3⟩
    | none =>
      rw [ht] at h
      obtain ⟨d', t', q, f, h1, h2⟩ := ih2 p h
      exact ⟨d', t', q, f, by simp [h1], h2⟩
  · intro d t ih p h; exact ih p h

theorem find_none (name : Str) (t : Dir) (h : t.find name = none) : ∀ (q : List Str) (f : Str), Holds t (q ++ [f]) → lower f ≠ lower name := by
  suffices hs : ∀ (t : Dir) (p : List Str), Holds t p → t.find name = none → ∀ (q : List Str) (f : Str), p = q ++ [f] → lower f ≠ lower name from
    fun q f hh => hs t _ hh h q f rfl
  intro t p hh
  induction hh with
  | @here files dirs f hf =>
    intro h q g e
    have hq : q = [] ∧ f = g := by
      cases q with
      | nil => simpa using e
      | cons a l => exfalso; cases l <;> simp at e
    unfold Dir.find at h
    cases hx : files.find? (fun f => lower name = lower f) with
    | some f' => rw [hx] at h; simp at h
    | none =>
      have := List.find?_eq_none.mp hx f hf
      rw [← hq.2]; intro e'; simp [e'] at this
  | @inside files dirs d t p hd hp ih =>
    intro h q g e
    unfold Dir.find at h
    cases hx : files.find? (fun f => lower name = lower f) with
    | some f' => rw [hx] at h; simp at h
    | none =>
      rw [hx] at h
      simp only at h
      have ht : t.find name = none := by
        clear ih hx e
        induction dirs with
        | nil => simp at hd
        | cons x xs ihd =>
          obtain ⟨d', t'⟩ := x
          unfold findDirs at h
          cases h' : t'.find name with
          | some r => rw [h'] at h; simp at h
          | none =>
            rw [h'] at h
            rcases List.mem_cons.mp hd with hd | hd
            · cases hd; exact h'
            · exact ihd hd h
      cases q with
      | nil =>
        simp at e
        obtain ⟨_, rfl⟩ := e
        cases hp
      | cons a l =>
        simp at e
        exact ih ht l g e.2

theorem findIn_spec (path : List Str) (name : Str) (c : Container) :
    (∀ h : Hit, findIn path name c = some h → Offers path name c h) ∧
    (findIn path name c = none → ∀ h : Hit, ¬ Offers path name c h) := by
  cases c with
  | absent => exact ⟨fun h e => by simp [findIn] at e, fun _ h => by cases h <;> simp [Offers]⟩
  | zip names =>
    constructor
    · intro h e
      simp only [findIn, Option.map_eq_some_iff] at e
      obtain ⟨f, hf, rfl⟩ := e
      have he := List.find?_some hf
      exact ⟨List.mem_of_find?_eq_some hf, (by simpa using he : lower (joined path name) = lower f).symm⟩
    · intro e h ho
      cases h with
      | path p => exact ho
      | entry f =>
        simp only [findIn, Option.map_eq_none_iff] at e
        have := List.find?_eq_none.mp e f ho.1
        simp [ho.2] at this
  | dir t =>
    constructor
    · intro h e
      simp only [findIn, Option.map_eq_some_iff] at e
      obtain ⟨p, hp, rfl⟩ := e
      unfold findInDirectory at hp
      cases ht : t.at path with
      | none => rw [ht] at hp; simp at hp
      | some sub =>
        rw [ht] at hp
        simp only [Option.map_eq_some_iff] at hp
        obtain ⟨r, hr, rfl⟩ := hp
        obtain ⟨q, f, h1, h2, h3⟩ := find_some name sub r hr
        subst h1
        exact ⟨sub, q, f, ht, h2, h3, rfl⟩
    · intro e h ho
      cases h with
      | entry f => exact ho
      | path p =>
        obtain ⟨sub, q, f, h1, h2, h3, _⟩ := ho
        simp only [findIn, Option.map_eq_none_iff] at e
        unfold findInDirectory at e
        rw [h1] at e
        simp only [Option.map_eq_none_iff] at e
        exact find_none name sub e q f h2 h3

/-- C44: what is found is offered by the container it comes from, and no earlier container offers anything. -/
theorem C44_first_container (path : List Str) (name : Str) (cs : List Container) (i : Nat) (h : Hit)
    (e : search path name cs = some (i, h)) :
    (∃ c : Container, cs[i]? = some c ∧ Offers path name c h) ∧
    ∀ (j : Nat) (c : Container), j < i → cs[j]? = some c → ∀ h' : Hit, ¬ Offers path name c h' := by
  induction cs generalizing i with
  | nil => simp [search] at e
  | cons c cs ih =>
    unfold search at e
    cases hc : findIn path name c with
    | some h' =>
      rw [hc] at e; simp only [Option.some.injEq, Prod.mk.injEq] at e
      obtain ⟨rfl, rfl⟩ := e
      exact ⟨⟨c, rfl, (findIn_spec path name c).1 _ hc⟩, fun j _ hj => absurd hj (Nat.not_lt_zero _)⟩
    | none =>
      rw [hc] at e
      simp only [Option.map_eq_some_iff, Prod.mk.injEq] at e
      obtain ⟨⟨i', h''⟩, he, rfl, rfl⟩ := e
      obtain ⟨h1, h2⟩ := ih i' he
      refine ⟨by simpa using h1, ?_⟩
      intro j c' hj hc' x
      cases j with
      | zero => simp at hc'; subst hc'; exact (findIn_spec path name _).2 hc x
      | succ j => exact h2 j c' (by simpa using hj) (by simpa using hc') x

/-- C44: None is the answer exactly when no container offers the file. -/
theorem C44_none_iff (path : List Str) (name : Str) (cs : List Container) :
    search path name cs = none ↔ ∀ c ∈ cs, ∀ h : Hit, ¬ Offers path name c h := by
  induction cs with
  | nil => simp [search]
  | cons c cs ih =>
    unfold search
    cases hc : findIn path name c with
    | some h' =>
      simp only [reduceCtorEq, false_iff]
      intro hn; exact hn c (by simp) h' ((findIn_spec path name c).1 _ hc)
    | none =>
      simp only [Option.map_eq_none_iff, ih, List.mem_cons, forall_eq_or_imp]
      exact ⟨fun h => ⟨(findIn_spec path name c).2 hc, h⟩, fun h => h.2⟩

/-- C44: in a directory the file directly in it is taken before those in sub-directories. -/
theorem C44_nearest_first (files : List Str) (dirs : List (Str × Dir)) (name f : Str) (hf : f ∈ files) (he : lower f = lower name) :
    ∃ g : Str, g ∈ files ∧ lower g = lower name ∧ findInDirectory (.mk files dirs) [] name = some [g] := by
  cases hx : files.find? (fun f => lower name = lower f) with
  | none => have := List.find?_eq_none.mp hx f hf; simp [he] at this
  | some g =>
    have := List.find?_some hx
    exact ⟨g, List.mem_of_find?_eq_some hx, (by simpa using this : lower name = lower g).symm,
      by simp [findInDirectory, Dir.at, Dir.find, hx]⟩

/-- C44 (finding): a directory is searched with its sub-directories, a zip file is not: the same library packed into a zip file is
not found. -/
theorem C44_zip_witness :
    search [] "x.lib".toList [.dir (.mk [] [("sub".toList, .mk ["X.lib".toList] [])])] = some (0, .path ["sub".toList, "X.lib".toList]) ∧
    search [] "x.lib".toList [.zip ["sub/X.lib".toList]] = none := by
  refine ⟨by decide, by decide⟩

example : search [] "a.lib".toList [.absent, .zip ["b.lib".toList], .dir (.mk ["A.LIB".toList] []), .zip ["a.lib".toList]] =
    some (2, .path ["A.LIB".toList]) := by decide

end Props.Search
