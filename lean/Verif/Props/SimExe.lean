import Verif.Spec.SimExe
import Verif.Lemmas.Qsch
/-
C89: the executable of a simulator and its library directories.
-/
namespace Props.SimExe
open Model.SimExe Spec.SimExe
open Model.PyStr (contains)

/-! The sections of a command -/

theorem blank_iff (c : Char) : c ∈ " \t\r\n".toList ↔ Blank c := by
  show c ∈ [' ', '\t', '\r', '\n'] ↔ _
  simp [Blank]

theorem shlex_blanks (rest : Str) : ∀ b : Str, (∀ c ∈ b, Blank c) → shlex none none (b ++ rest) = shlex none none rest := by
  intro b
  induction b with
  | nil => intro _; rfl
  | cons c b ih =>
    intro h
    rw [List.cons_append]
    conv_lhs => unfold shlex
    rw [if_pos ((blank_iff c).2 (h c (by simp))), ih (fun x hx => h x (by simp [hx]))]
    show Option.map (fun x => [] ++ x) _ = _
    cases shlex none none rest <;> rfl

theorem shlex_plain (rest : Str) : ∀ (w : Str) (cur : Str), (∀ c ∈ w, ¬ Blank c ∧ c ≠ '"' ∧ c ≠ '\'') →
    shlex none (some cur) (w ++ rest) = shlex none (some (cur ++ w)) rest := by
  intro w
  induction w with
  | nil => intro cur _; simp
  | cons c w ih =>
    intro cur h
    have hc := h c (by simp)
    rw [List.cons_append]
    conv_lhs => unfold shlex
    rw [if_neg (by rw [blank_iff]; exact hc.1), if_neg (by tauto)]
    show shlex none (some (cur ++ [c])) _ = _
    rw [ih _ (fun x hx => h x (by simp [hx]))]
    simp

theorem shlex_inside (q : Char) (rest : Str) : ∀ (w : Str) (cur : Str), q ∉ w →
    shlex (some q) (some cur) (w ++ q :: rest) = shlex none (some (cur ++ w)) rest := by
  intro w
  induction w with
  | nil =>
    intro cur _
    rw [List.nil_append]
    conv_lhs => unfold shlex
    rw [if_pos rfl]
    simp
  | cons c w ih =>
    intro cur h
    rw [List.cons_append]
    conv_lhs => unfold shlex
    rw [if_neg (by rintro rfl; simp at h)]
    show shlex (some q) (some (cur ++ [c])) _ = _
    rw [ih _ (by simp only [List.mem_cons, not_or] at h; exact h.2)]
    simp

theorem shlex_end (w : Str) (rest : Str) (h : rest = [] ∨ ∃ c r, rest = c :: r ∧ Blank c) :
    shlex none (some w) rest = (shlex none none rest).map (w :: ·) := by
  rcases h with rfl | ⟨c, r, rfl, hc⟩
  · rfl
  · conv_lhs => unfold shlex
    conv_rhs => unfold shlex
    rw [if_pos ((blank_iff c).2 hc), if_pos ((blank_iff c).2 hc)]
    cases shlex none none r <;> rfl

/-- C89: the sections of a command are those that were written, quoted or not; blanks between quotes belong to a section. -/
theorem C89_sections (ws : List Str) (text : Str) (h : Command ws text) : shlex none none text = some ws := by
  induction h with
  | nil s hs =>
    have := shlex_blanks [] s hs
    rw [List.append_nil] at this
    rw [this]; rfl
  | cons b t w ws rest hb ht _ hs ih =>
    rw [List.append_assoc, shlex_blanks _ _ hb]
    have key : shlex none none (t ++ rest) = shlex none (some w) rest := by
      cases ht with
      | plain h hc =>
        cases t with
        | nil => exact absurd rfl h
        | cons c w =>
          have h1 := hc c (by simp)
          rw [List.cons_append]
          conv_lhs => unfold shlex
          rw [if_neg (by rw [blank_iff]; exact h1.1), if_neg (by tauto)]
          show shlex none (some ([] ++ [c])) _ = _
          rw [shlex_plain _ _ _ (fun x hx => hc x (by simp [hx]))]
          simp
      | quoted q hq h =>
        rw [List.cons_append, List.append_assoc]
        conv_lhs => unfold shlex
        have hb : ¬ Blank q := by rcases hq with rfl | rfl <;> simp [Blank]
        rw [if_neg (by rw [blank_iff]; exact hb), if_pos hq]
        show shlex (some q) (some []) (w ++ q :: rest) = _
        rw [shlex_inside _ _ _ _ h]
        simp
    rw [key, shlex_end w rest hs, ih]
    rfl

/-! ### C89: create_from -/

variable {C : Type} [DecidableEq C]

/-- C89: a path (or the text of one that exists) is the whole command, blanks included. -/
theorem C89_path (w : World) (table : C → Rec) (cls : C) (isPath : Bool) (text : Str) (name : Option Str)
    (h : isPath = true ∨ w.present text = true) (he : w.present (posix text) = true ∨ w.which (posix text) = true) :
    ∃ t', createFrom w table cls isPath text name = (.ok cls, t') ∧ (t' cls).exe = [posix text] ∧
      (∀ n, name = some n → (t' cls).process = n) ∧ ∀ c, c ≠ cls → t' c = table c := by
  have hs : sections w isPath text = .ok [posix text] := by
    unfold sections
    rw [if_pos (by rcases h with h | h <;> simp [h])]
  refine ⟨fun c => if c = cls then ⟨[posix text], name.getD (guess w (posix text))⟩ else table c, ?_, by simp, ?_, ?_⟩
  · unfold createFrom
    rw [hs]
    simp only
    rw [if_pos (by rcases he with h | h <;> simp [h])]
  · rintro n rfl; simp
  · intro c hc; simp [hc]

/-- C89: a command of several sections (a loader like wine, and the simulator): the first one must be found, and the class keeps them all. -/
theorem C89_command (w : World) (table : C → Rec) (cls : C) (text p : Str) (ps : List Str) (name : Option Str)
    (hp : w.present text = false) (hb : '\\' ∉ text) (hc : Command (p :: ps) text)
    (he : w.present (posix p) = true ∨ w.which (posix p) = true) :
    ∃ t', createFrom w table cls false text name = (.ok cls, t') ∧ (t' cls).exe = posix p :: ps ∧
      (∀ n, name = some n → (t' cls).process = n) ∧ (name = none → w.os ≠ .darwin → posix p ≠ [] → (t' cls).process = pathName (posix p)) ∧
      ∀ c, c ≠ cls → t' c = table c := by
  have hs : sections w false text = .ok (posix p :: ps) := by
    unfold sections
    rw [if_neg (by simp [hp]), if_neg hb, C89_sections _ _ hc]
  refine ⟨fun c => if c = cls then ⟨posix p :: ps, name.getD (guess w (posix p))⟩ else table c, ?_, by simp, ?_, ?_, ?_⟩
  · unfold createFrom
    rw [hs]
    simp only
    rw [if_pos (by rcases he with h | h <;> simp [h])]
  · rintro n rfl; simp
  · rintro rfl ho hn
    show (if cls = cls then (⟨posix p :: ps, (none : Option Str).getD (guess w (posix p))⟩ : Rec) else table cls).process = _
    rw [if_pos rfl]
    show guess w (posix p) = _
    unfold guess
    rw [if_neg hn, if_neg ho]
  · intro c hc; simp [hc]

/-- C89: whatever the text, either an exception is raised and no class changes, or the class is returned, it is available, and no other class changes. -/
theorem C89_all_or_nothing (w : World) (table : C → Rec) (cls : C) (isPath : Bool) (text : Str) (name : Option Str) :
    (∃ e, createFrom w table cls isPath text name = (.error e, table)) ∨
    (∃ t', createFrom w table cls isPath text name = (.ok cls, t') ∧ isAvailable w (t' cls) = true ∧ ∀ c, c ≠ cls → t' c = table c) := by
  unfold createFrom
  cases sections w isPath text with
  | error e => exact .inl ⟨e, rfl⟩
  | ok l =>
    cases l with
    | nil => exact .inl ⟨_, rfl⟩
    | cons p ps =>
      simp only
      by_cases h : (w.present p || w.which p) = true
      · rw [if_pos h]
        refine .inr ⟨_, rfl, ?_, fun c hc => by simp [hc]⟩
        simp [isAvailable, h]
      · rw [if_neg h]
        exact .inl ⟨_, rfl⟩

/-- C89: a simulator that is on no path of the machine is refused with FileNotFoundError. -/
theorem C89_not_found (w : World) (table : C → Rec) (cls : C) (text p : Str) (ps : List Str) (name : Option Str)
    (hp : w.present text = false) (hb : '\\' ∉ text) (hc : Command (p :: ps) text) (he : w.present (posix p) = false) (hw : w.which (posix p) = false) :
    createFrom w table cls false text name = (.error .notFound, table) := by
  have hs : sections w false text = .ok (posix p :: ps) := by
    unfold sections
    rw [if_neg (by simp [hp]), if_neg hb, C89_sections _ _ hc]
  unfold createFrom
  rw [hs]
  simp [he, hw]

/-! ### C89: library directories -/

theorem before_first (sep : Str) (hsep : sep ≠ []) : ∀ (root rest : Str), ¬ sep <:+: root ++ sep.dropLast → before sep (root ++ sep ++ rest) = root := by
  intro root
  induction root with
  | nil =>
    intro rest _
    cases hs : sep with
    | nil => exact absurd hs hsep
    | cons c s =>
      rw [List.nil_append, List.cons_append]
      unfold before
      rw [if_pos]
      rw [List.isPrefixOf_iff_prefix]
      exact ⟨rest, rfl⟩
  | cons c root ih =>
    intro rest h
    rw [List.cons_append, List.cons_append]
    unfold before
    rw [if_neg, ih rest (fun hh => h (by rw [List.cons_append]; exact List.infix_cons hh))]
    rw [List.isPrefixOf_iff_prefix]
    rintro ⟨t, ht⟩
    apply h
    have hl : sep.length ≤ ((c :: root) ++ sep.dropLast).length := by simp; omega
    have hp : sep <+: (c :: root) ++ sep.dropLast := by
      have h1 : sep <+: ((c :: root) ++ sep.dropLast) ++ (sep.getLast hsep :: rest) := by
        refine ⟨t, ?_⟩
        rw [ht]
        have := List.dropLast_append_getLast hsep
        calc c :: (root ++ sep ++ rest) = c :: (root ++ (sep.dropLast ++ [sep.getLast hsep]) ++ rest) := by rw [this]
          _ = _ := by simp
      exact List.prefix_of_prefix_length_le h1 ⟨_, rfl⟩ hl
    exact hp.isInfix

theorem lit_prefix (a p : Str) : a.isPrefixOf p = true ↔ ∃ r, p = a ++ r := by
  rw [List.isPrefixOf_iff_prefix]
  exact ⟨fun ⟨t, h⟩ => ⟨t, h.symm⟩, fun ⟨t, h⟩ => ⟨t, h.symm⟩⟩

theorem filterMap_filter (f : Str → Str) (g : Str → Bool) (h : Str → Option Str) (hh : ∀ p, h p = if g (f p) = true then some (f p) else none) :
    ∀ l : List Str, l.filterMap h = (l.map f).filter g := by
  intro l
  induction l with
  | nil => rfl
  | cons p l ih =>
    rw [List.filterMap_cons, hh, List.map_cons, List.filter_cons]
    by_cases hg : g (f p) = true
    · rw [if_pos hg, if_pos hg, ← ih]
    · rw [if_neg hg, if_neg hg, ← ih]

theorem below_yes (drive p : Str) (h : (∃ r, p = "C:/".toList ++ r) ∨ (∃ r, p = "c:/".toList ++ r)) : below drive p = drive ++ p.drop 3 := by
  unfold below
  rw [if_pos (by rw [Bool.or_eq_true, lit_prefix, lit_prefix]; exact h)]

theorem below_no (drive p : Str) (h : ¬ ((∃ r, p = "C:/".toList ++ r) ∨ (∃ r, p = "c:/".toList ++ r))) : below drive p = p := by
  unfold below
  rw [if_neg (by rw [Bool.or_eq_true, lit_prefix, lit_prefix]; exact h)]

theorem wine_host (w : World) (root u : Str) (hu : w.user = some u) (p : Str) : wine w (root ++ "/drive_c/".toList) p = host root u p := by
  unfold wine
  by_cases h : ∃ r, p = '~' :: r
  · obtain ⟨r, rfl⟩ := h
    have hh : homeC w ('~' :: r) = "C:/users/".toList ++ (u ++ r) := by
      unfold homeC
      have : "~".toList.isPrefixOf ('~' :: r) = true := (lit_prefix "~".toList ('~' :: r)).2 ⟨r, rfl⟩
      rw [if_pos this, hu]
      rfl
    rw [hh, below_yes (root ++ "/drive_c/".toList) ("C:/users/".toList ++ (u ++ r)) (.inl ⟨"users/".toList ++ (u ++ r), rfl⟩)]
    show root ++ "/drive_c/".toList ++ ("users/".toList ++ (u ++ r)) = root ++ "/drive_c/users/".toList ++ u ++ r
    have : "/drive_c/users/".toList = "/drive_c/".toList ++ "users/".toList := by decide
    rw [this]; simp only [List.append_assoc]
  · have hh : homeC w p = p := by
      unfold homeC
      rw [if_neg (by rw [lit_prefix]; exact h)]
    rw [hh]
    by_cases h1 : ∃ r, p = "C:/".toList ++ r
    · obtain ⟨r, rfl⟩ := h1
      rw [below_yes _ _ (.inl ⟨r, rfl⟩)]
      rfl
    · by_cases h2 : ∃ r, p = "c:/".toList ++ r
      · obtain ⟨r, rfl⟩ := h2
        rw [below_yes _ _ (.inr ⟨r, rfl⟩)]
        rfl
      · rw [below_no _ _ (fun h => h.elim h1 h2)]
        unfold host
        split
        · exact absurd ⟨_, rfl⟩ h
        · exact absurd ⟨_, rfl⟩ h1
        · exact absurd ⟨_, rfl⟩ h2
        · rfl

/-- C89: under wine on Linux or MacOS the library paths of a simulator are those of its default directories, in order, that exist on the machine when the home
directory and the drive C are looked up below the wine directory of the executable. -/
theorem C89_wine_libraries (w : World) (r : Rec) (defaults : List Str) (root rest u : Str) (ho : w.os ≠ .windows)
    (he : r.exe.getLast? = some (root ++ "/drive_c/".toList ++ rest)) (hp : w.present (root ++ "/drive_c/".toList ++ rest) = true)
    (h1 : ¬ "/drive_c/".toList <:+: root ++ "/drive_c".toList) (hu : w.user = some u)
    (hh : ∀ p ∈ defaults, (host root u p).head? ≠ some '~') :
    libraryPaths w r defaults = (defaults.map (host root u)).filter (fun p => w.present p && w.isDir p) := by
  have hd : driveC w (some (root ++ "/drive_c/".toList ++ rest)) = some (root ++ "/drive_c/".toList) := by
    unfold driveC
    rw [if_pos (by cases h : w.os <;> simp_all)]
    simp only
    rw [if_pos ((Lemmas.Qsch.contains_iff _ _ (by decide)).2 ⟨root, rest, rfl⟩), before_first _ (by decide) _ _ h1]
  have hx : ∀ p ∈ defaults, expandDir w p (some (root ++ "/drive_c/".toList ++ rest)) =
      if (w.present (host root u p) && w.isDir (host root u p)) = true then some (host root u p) else none := by
    intro p hm
    unfold expandDir
    rw [hd]
    simp only
    rw [wine_host w root u hu]
    have : "~".toList.isPrefixOf (host root u p) = false := by
      rw [← Bool.not_eq_true, lit_prefix]
      rintro ⟨t, ht⟩
      apply hh p hm
      rw [ht]; rfl
    rw [this]
    rfl
  unfold libraryPaths
  rw [he]
  simp only [Option.bind_some, hp, if_true]
  clear hh
  induction defaults with
  | nil => rfl
  | cons p l ih =>
    have ihl := ih (fun q hq => hx q (by simp [hq]))
    rw [List.filterMap_cons, hx p (by simp), List.map_cons, List.filter_cons]
    by_cases hg : (w.present (host root u p) && w.isDir (host root u p)) = true
    · rw [if_pos hg, if_pos hg, ← ihl]
    · rw [if_neg hg, if_neg hg, ← ihl]

/-- C89: without wine they are the default directories that exist, with the home directory expanded. -/
theorem C89_libraries (w : World) (r : Rec) (defaults : List Str)
    (h : w.os = .windows ∨ ∀ e, r.exe.getLast? = some e → w.present e = true → ¬ "/drive_c/".toList <:+: e) :
    libraryPaths w r defaults =
      (defaults.map (fun p => if p.head? = some '~' then w.expanduser p else p)).filter (fun p => w.present p && w.isDir p) := by
  unfold libraryPaths
  simp only
  apply filterMap_filter
  intro p
  have hd : driveC w (r.exe.getLast?.bind (fun e => if w.present e then some e else none)) = none := by
    unfold driveC
    rcases h with h | h
    · rw [h]; rfl
    · split_ifs
      · cases he : r.exe.getLast? with
        | none => rfl
        | some e =>
          by_cases hp : w.present e = true
          · simp only [Option.bind_some, hp, if_true]
            rw [if_neg]
            rw [Lemmas.Qsch.contains_iff _ _ (by decide)]
            exact h e he hp
          · simp only [Option.bind_some, hp]
            rfl
      · rfl
  have hs : ("~".toList.isPrefixOf p = true) ↔ p.head? = some '~' := by
    rw [lit_prefix]
    cases p with
    | nil => simp
    | cons c p =>
      simp only [List.head?_cons, Option.some.injEq]
      exact ⟨fun ⟨t, h⟩ => (by injection h), fun h => ⟨p, (by rw [h]; rfl)⟩⟩
  unfold expandDir
  rw [hd]
  simp only
  by_cases hh : p.head? = some '~'
  · simp only [hs.2 hh, hh, if_true]
  · have : "~".toList.isPrefixOf p = false := by rw [← Bool.not_eq_true, hs]; exact hh
    simp only [this, hh, if_false, Bool.false_eq_true]

/-! Samples -/

def linux : World where
  os := .linux
  present := fun p => p = "/usr/bin/wine".toList ∨ p = "/h/.wine/drive_c/q.exe".toList ∨ p = "/h/.wine/drive_c/users/me/Documents/QSPICE".toList
  isDir := fun p => p = "/h/.wine/drive_c/users/me/Documents/QSPICE".toList
  which := fun p => p = "wine".toList
  expanduser := fun p => "/h".toList ++ p.drop 1
  user := some "me".toList

/-- C89 is not vacuous; and its limits: only the first section of a command is looked for, and making a second simulator from the same class changes the first. -/
theorem C89_sample :
    ((createFrom linux (fun _ : Bool => ⟨[], []⟩) true false "wine '/h/.wine/drive_c/q.exe'".toList none).2 true =
      ⟨["wine".toList, "/h/.wine/drive_c/q.exe".toList], "wine".toList⟩) ∧
    libraryPaths linux ⟨["wine".toList, "/h/.wine/drive_c/q.exe".toList], []⟩ ["C:/Program Files/QSPICE".toList, "~/Documents/QSPICE".toList] =
      ["/h/.wine/drive_c/users/me/Documents/QSPICE".toList] ∧
    ((createFrom linux (fun _ : Bool => ⟨[], []⟩) true false "wine /missing.exe".toList none).2 true).exe = ["wine".toList, "/missing.exe".toList] := by
  refine ⟨?_, ?_, ?_⟩ <;> decide +kernel

/-- C89, limit: two simulators made from one class are the same object: the later executable is used by both. -/
theorem C89_same_class (w : World) (table t1 t2 : C → Rec) (cls a b : C) (p1 p2 : Bool) (x y : Str) (n1 n2 : Option Str)
    (h1 : createFrom w table cls p1 x n1 = (.ok a, t1)) (h2 : createFrom w t1 cls p2 y n2 = (.ok b, t2)) : a = b ∧ t2 a = t2 b := by
  have : ∀ (t t' : C → Rec) (c : C) (p : Bool) (x : Str) (n : Option Str), createFrom w t cls p x n = (.ok c, t') → c = cls := by
    intro t t' c p x n h
    rcases C89_all_or_nothing w t cls p x n with ⟨e, h'⟩ | ⟨t'', h', _⟩
    · rw [h'] at h; simp at h
    · rw [h'] at h; simp only [Prod.mk.injEq, Except.ok.injEq] at h; exact h.1.symm
  rw [this _ _ _ _ _ _ h1, this _ _ _ _ _ _ h2]
  exact ⟨rfl, rfl⟩

example : Command ["wine".toList, "/a b/x.exe".toList] "wine  \"/a b/x.exe\"".toList :=
  .cons [] "wine".toList _ _ "  \"/a b/x.exe\"".toList (by simp) (.plain _ (by decide) (by simp [Blank]))
    (.cons "  ".toList "\"/a b/x.exe\"".toList _ _ [] (by simp [Blank]) (.quoted "/a b/x.exe".toList '"' (.inl rfl) (by decide)) (.nil _ (by simp)) (.inl rfl))
    (.inr ⟨' ', _, rfl, .inl rfl⟩)

end Props.SimExe
