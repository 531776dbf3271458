import Verif.Model.AscSub
import Verif.Props.LibPath
import Mathlib.Logic.Relation
/-
C97: the symbols and sub-circuits of an LTspice schematic.
-/
namespace Props.AscSub
open Model.AscSub
open Model.LibPath (Found attr joinDir)
open Spec.LibPath (FirstOffer Nowhere)
abbrev Str := List Char

/-! ### Specification -/

/-- After a separator comes the name of a directory or file, that does not begin with a blank. -/
def Follows (s : Str) : Prop := s.head? ≠ some '\\' ∧ s.head? ≠ some '/' ∧ s.head? ≠ some ' '

/-- A symbol as LTspice writes it, and the path it means: backslashes, single or doubled, stand between directories, and a blank is written after a
backslash or by itself. -/
inductive Written : Str → Str → Prop
  | nil : Written [] []
  | char (c : Char) (s p : Str) : c ≠ '\\' → c ≠ '/' → Written s p → Written (c :: s) (c :: p)
  | sep (s p : Str) : Follows s → Written s p → Written ('\\' :: s) ('/' :: p)
  | double (s p : Str) : Follows s → Written s p → Written ('\\' :: '\\' :: s) ('/' :: p)
  | blank (s p : Str) : Written s p → Written ('\\' :: ' ' :: s) (' ' :: p)

/-- The schematic at `p` has a component that stands for the schematic at `q`. -/
def Needs (v : Env) (p q : Str) : Prop :=
  ∃ (cs : List (Str × Str)) (ref symbol : Str), v.schematic p = some cs ∧ (ref, symbol) ∈ cs ∧
    attached v (dirOf p) ref symbol = .ok (some (.schematic q))

mutual
/-- The opened schematic at `p`: with every component what it stands for, the schematics in turn opened. -/
inductive Shows (v : Env) : Str → List (Str × Sub) → Prop
  | intro (p : Str) (cs : List (Str × Str)) (subs : List (Str × Sub)) : v.existing p = true → v.schematic p = some cs → ShowsAll v (dirOf p) cs subs → Shows v p subs
inductive ShowsAll (v : Env) : Str → List (Str × Str) → List (Str × Sub) → Prop
  | nil (dir : Str) : ShowsAll v dir [] []
  | plain (dir ref symbol : Str) (cs : List (Str × Str)) (subs : List (Str × Sub)) : attached v dir ref symbol = .ok none →
      ShowsAll v dir cs subs → ShowsAll v dir ((ref, symbol) :: cs) ((ref, .plain) :: subs)
  | nothing (dir ref symbol : Str) (cs : List (Str × Str)) (subs : List (Str × Sub)) : attached v dir ref symbol = .ok (some .nothing) →
      ShowsAll v dir cs subs → ShowsAll v dir ((ref, symbol) :: cs) ((ref, .nothing) :: subs)
  | definition (dir ref symbol : Str) (i : Option (List Model.NetTree.Item)) (cs : List (Str × Str)) (subs : List (Str × Sub)) :
      attached v dir ref symbol = .ok (some (.definition i)) → ShowsAll v dir cs subs → ShowsAll v dir ((ref, symbol) :: cs) ((ref, .definition i) :: subs)
  | schematic (dir ref symbol q : Str) (inner : List (Str × Sub)) (cs : List (Str × Str)) (subs : List (Str × Sub)) :
      attached v dir ref symbol = .ok (some (.schematic q)) → Shows v q inner → ShowsAll v dir cs subs →
      ShowsAll v dir ((ref, symbol) :: cs) ((ref, .schematic q inner) :: subs)
end

/-! ### The name of the symbol file -/

theorem collapse_other (c : Char) (r : Str) (h : c ≠ '/') : collapse (c :: r) = c :: collapse r := by
  conv_lhs => unfold collapse
  split
  · rename_i heq; injection heq with h1 _; exact absurd h1 h
  · rename_i heq; injection heq with h1 h2; rw [h1, h2]
  · rename_i heq; cases heq

theorem collapse_one (r : Str) (h : r.head? ≠ some '/') : collapse ('/' :: r) = '/' :: collapse r := by
  conv_lhs => unfold collapse
  split
  · rename_i heq; injection heq with _ h2; rw [h2] at h; exact absurd rfl h
  · rename_i heq; injection heq with h1 h2; rw [h1, h2]
  · rename_i heq; cases heq

theorem collapse_two (r : Str) : collapse ('/' :: '/' :: r) = '/' :: collapse r := by
  conv_lhs => unfold collapse
  simp only

theorem unescape_other (c : Char) (r : Str) (h : c ≠ '/') : unescape (c :: r) = c :: unescape r := by
  conv_lhs => unfold unescape
  split
  · rename_i heq; injection heq with h1 _; exact absurd h1 h
  · rename_i heq; injection heq with h1 h2; rw [h1, h2]
  · rename_i heq; cases heq

theorem unescape_one (r : Str) (h : r.head? ≠ some ' ') : unescape ('/' :: r) = '/' :: unescape r := by
  conv_lhs => unfold unescape
  split
  · rename_i heq; injection heq with _ h2; rw [h2] at h; exact absurd rfl h
  · rename_i heq; injection heq with h1 h2; rw [h1, h2]
  · rename_i heq; cases heq

theorem unescape_two (r : Str) : unescape ('/' :: ' ' :: r) = ' ' :: unescape r := by
  conv_lhs => unfold unescape
  simp only

def sl (c : Char) : Char := if c = '\\' then '/' else c

theorem collapse_head (s : Str) : (collapse s).head? = s.head? := by
  cases s with
  | nil => rfl
  | cons c r =>
    by_cases h : c = '/'
    · subst h
      by_cases hr : r.head? = some '/'
      · cases r with
        | nil => simp at hr
        | cons d r => simp only [List.head?_cons, Option.some.injEq] at hr; subst hr; rw [collapse_two]; rfl
      · rw [collapse_one r hr]; rfl
    · rw [collapse_other c r h]; rfl

theorem follows_head (s t : Str) (h : Follows s) (ht : t.head? = some '.') : ((s ++ t).map sl).head? ≠ some '/' ∧ ((s ++ t).map sl).head? ≠ some ' ' := by
  obtain ⟨h1, h2, h3⟩ := h
  cases s with
  | nil =>
    cases t with
    | nil => cases ht
    | cons c t => simp only [List.head?_cons, Option.some.injEq] at ht; subst ht; simp [sl]
  | cons c s =>
    simp only [List.head?_cons, ne_eq, Option.some.injEq] at h1 h2 h3
    simp [sl, h1, h2, h3]

theorem written_path (s p : Str) (h : Written s p) (t : Str) (ht : t.head? = some '.') (h' : ∀ c ∈ t, c ≠ '\\' ∧ c ≠ '/') :
    unescape (collapse ((s ++ t).map sl)) = p ++ t := by
  induction h with
  | nil =>
    clear ht
    induction t with
    | nil => simp [collapse, unescape]
    | cons c t ih =>
      have hc := h' c (by simp)
      simp only [List.nil_append, List.map_cons] at ih ⊢
      have e : sl c = c := by simp [sl, hc.1]
      rw [e, collapse_other _ _ hc.2, unescape_other _ _ hc.2, ih (fun d hd => h' d (by simp [hd]))]
  | char c s p h1 h2 _ ih =>
    have e : sl c = c := by simp [sl, h1]
    rw [List.cons_append, List.map_cons, e, collapse_other _ _ h2, unescape_other _ _ h2, ih]
    rfl
  | sep s p hf _ ih =>
    have e : sl '\\' = '/' := by simp [sl]
    obtain ⟨f1, f2⟩ := follows_head s t hf ht
    rw [List.cons_append, List.map_cons, e, collapse_one _ f1, unescape_one _ (by rw [collapse_head]; exact f2), ih]
    rfl
  | double s p hf _ ih =>
    have e : sl '\\' = '/' := by simp [sl]
    obtain ⟨f1, f2⟩ := follows_head s t hf ht
    rw [List.cons_append, List.cons_append, List.map_cons, List.map_cons, e, collapse_two, unescape_one _ (by rw [collapse_head]; exact f2), ih]
    rfl
  | blank s p _ ih =>
    have e : sl '\\' = '/' := by simp [sl]
    have e2 : sl ' ' = ' ' := by decide
    rw [List.cons_append, List.cons_append, List.map_cons, List.map_cons, e, e2, collapse_one _ (by simp), collapse_other _ _ (by decide), unescape_two, ih]
    rfl

theorem written_plain (s p : Str) (h : Written s p) (hb : '\\' ∉ s) : s = p := by
  induction h with
  | nil => rfl
  | char c s p _ _ _ ih => rw [ih (by intro x; exact hb (by simp [x]))]
  | sep => simp at hb
  | double => simp at hb
  | blank => simp at hb

/-- C97: the symbol file of a symbol that is written the way LTspice writes it on Windows: its path with slashes and the ending .asy. A name without
backslash is taken as it is. -/
theorem C97_symbol_name (s p : Str) : (Written s p → symbolFile s = p ++ ".asy".toList) ∧ ('\\' ∉ s → symbolFile s = s ++ ".asy".toList) := by
  have h2 : '\\' ∉ s → symbolFile s = s ++ ".asy".toList := by
    intro h
    unfold symbolFile
    simp only
    rw [if_neg]
    rw [List.contains_iff_mem]
    simpa using h
  refine ⟨?_, h2⟩
  intro h
  by_cases hb : '\\' ∈ s
  · unfold symbolFile
    simp only
    rw [if_pos (by rw [List.contains_iff_mem]; simp [hb])]
    exact written_path s p h _ rfl (by decide)
  · rw [h2 hb, written_plain s p h hb]

/-! ### The symbol -/

/-- C97: the symbol file is looked for beside the schematic, in the current directory, in the symbols of the simulator's libraries and in the custom
paths, in this order; a symbol that is nowhere is refused. -/
theorem C97_symbol (v : Env) (dir symbol : Str) (cs : List Str)
    (hcs : cs = [dir, ".".toList] ++ (attr v.st.sim .asc).map (fun x => joinDir x "sym".toList) ++ attr v.st.custom .asc) :
    (∀ p s, getSymbol v dir symbol = .ok (p, s) → ∃ f : Found, FirstOffer v.w (fileOf (symbolFile symbol)) cs f ∧ p = v.place f ∧ v.symbolAt p = some s) ∧
    (getSymbol v dir symbol = .error (.notFound (symbolFile symbol)) ↔ Nowhere v.w (fileOf (symbolFile symbol)) cs) := by
  subst hcs
  have hb := Props.LibPath.searchIn_both v.w (fileOf (symbolFile symbol)) ([dir, ".".toList] ++ (attr v.st.sim .asc).map (fun x => joinDir x "sym".toList) ++ attr v.st.custom .asc)
  unfold getSymbol Model.LibPath.ascSymbolSearch
  cases hs : Model.LibPath.searchIn v.w (fileOf (symbolFile symbol)) ([dir, ".".toList] ++ (attr v.st.sim .asc).map (fun x => joinDir x "sym".toList) ++ attr v.st.custom .asc) with
  | none =>
    simp only
    refine ⟨(by intro p s h; cases h), ?_⟩
    rw [← hb.2, hs]; simp
  | some f =>
    simp only
    cases ha : v.symbolAt (v.place f) with
    | none =>
      refine ⟨(by intro p s h; cases h), ?_⟩
      rw [← hb.2, hs]; simp
    | some s0 =>
      refine ⟨?_, by rw [← hb.2, hs]; simp⟩
      intro p s h
      injection h with h
      injection h with h1 h2
      subst h1 h2
      exact ⟨f, hb.1 f hs, rfl, ha⟩

/-! ### What a component stands for -/

/-- C97: a component stands for a sub-circuit if its name begins with X, if its symbol is a block or if the symbol has the prefix X; nothing is
attached to the others. -/
theorem C97_is_subcircuit (v : Env) (dir ref symbol p : Str) (s : Model.Asy.St) (h : getSymbol v dir symbol = .ok (p, s)) :
    (ref.head? = some 'X' ∨ s.symbolType = some "BLOCK".toList ∨ s.attrs.lookup "Prefix".toList = some "X".toList →
      attached v dir ref symbol = (getSubcircuit v dir p s).map some) ∧
    (¬ (ref.head? = some 'X' ∨ s.symbolType = some "BLOCK".toList ∨ s.attrs.lookup "Prefix".toList = some "X".toList) →
      attached v dir ref symbol = .ok none) := by
  have e : Model.Asy.isSubcircuit s = true ↔ s.symbolType = some "BLOCK".toList ∨ s.attrs.lookup "Prefix".toList = some "X".toList := by
    unfold Model.Asy.isSubcircuit
    rw [Bool.or_eq_true, decide_eq_true_iff, decide_eq_true_iff]
  unfold attached
  rw [h]
  simp only [e]
  refine ⟨?_, ?_⟩
  · intro hx
    rw [if_pos hx]
    cases getSubcircuit v dir p s <;> rfl
  · intro hx
    rw [if_neg hx]

/-- C97: what the sub-circuit is. A symbol that is neither a cell nor a block is refused. A cell that names no library has none. -/
theorem C97_kinds (v : Env) (dir p : Str) (s : Model.Asy.St) :
    (s.symbolType ≠ some "CELL".toList → s.symbolType ≠ some "BLOCK".toList → getSubcircuit v dir p s = .error (.kind s.symbolType)) ∧
    (s.symbolType = some "CELL".toList → Model.Asy.getLibrary s = none → getSubcircuit v dir p s = .ok .nothing) := by
  unfold getSubcircuit
  refine ⟨?_, ?_⟩
  · intro h1 h2; rw [if_neg (fun h => h.elim h1 h2)]
  · intro h1 h2
    rw [if_pos (.inl h1), h2]
    simp only
    rw [if_neg (by rw [h1]; decide)]

/-- C97: a block that names no library stands for the schematic of its name beside the symbol file, and if there is none for the first of that name
beside the schematic, in the current directory or in the custom paths; with none anywhere the schematic cannot be opened. -/
theorem C97_block (v : Env) (dir b : Str) (file : Str) (s : Model.Asy.St) (hs : s.symbolType = some "BLOCK".toList) (hl : Model.Asy.getLibrary s = none)
    (hf : '/' ∉ file) (hb : b = [] ∨ ∃ d, b = d ++ ['/']) :
    (v.existing (b ++ file ++ ".asc".toList) = true → getSubcircuit v dir (b ++ file ++ ".asy".toList) s = .ok (.schematic (b ++ file ++ ".asc".toList))) ∧
    (v.existing (b ++ file ++ ".asc".toList) = false →
      (∀ q, getSubcircuit v dir (b ++ file ++ ".asy".toList) s = .ok (.schematic q) → ∃ f : Found,
        FirstOffer v.w ([], file ++ ".asc".toList) ([dir, ".".toList] ++ attr v.st.custom .asc) f ∧ q = v.place f) ∧
      (getSubcircuit v dir (b ++ file ++ ".asy".toList) s = .error (.notFound (b ++ file ++ ".asc".toList)) ↔
        Nowhere v.w ([], file ++ ".asc".toList) ([dir, ".".toList] ++ attr v.st.custom .asc))) := by
  have e1 : besideSymbol (b ++ file ++ ".asy".toList) = some (b ++ file ++ ".asc".toList) := by
    unfold besideSymbol Model.LibPath.endsWith
    rw [if_pos]
    · congr 2
      have : (".asy".toList : Str) = ['.', 'a', 's', 'y'] := rfl
      rw [this]
      have h4 : b ++ file ++ ['.', 'a', 's', 'y'] = (((b ++ file ++ ['.']) ++ ['a']) ++ ['s']) ++ ['y'] := by simp
      rw [h4, List.dropLast_concat, List.dropLast_concat, List.dropLast_concat, List.dropLast_concat]
    · rw [List.isPrefixOf_iff_prefix, List.reverse_prefix]
      exact List.suffix_append _ _
  have e2 : ((Model.PyStr.splitOn '/' (b ++ file ++ ".asc".toList)).getLast?).getD [] = file ++ ".asc".toList := by
    have hc : '/' ∉ file ++ ".asc".toList := by
      simp only [List.mem_append, not_or]
      exact ⟨hf, by decide⟩
    have hc : ∀ c ∈ file ++ ".asc".toList, c ≠ '/' := fun c hm e => hc (e ▸ hm)
    have last : ∀ x : Str, ((Model.PyStr.splitOn '/' (x ++ '/' :: (file ++ ".asc".toList))).getLast?).getD [] = file ++ ".asc".toList := by
      intro x
      induction x with
      | nil =>
        rw [List.nil_append]
        unfold Model.PyStr.splitOn
        rw [if_pos rfl, Lemmas.PyStr.splitOn_clean _ _ hc]
        rfl
      | cons c x ih =>
        rw [List.cons_append]
        unfold Model.PyStr.splitOn
        generalize hq : Model.PyStr.splitOn '/' (x ++ '/' :: (file ++ ".asc".toList)) = q at ih
        by_cases hcc : c = '/'
        · rw [if_pos hcc]
          cases q with
          | nil => simp only [List.getLast?_nil, Option.getD_none] at ih; rw [← ih]; rfl
          | cons w ws => rw [List.getLast?_cons_cons]; exact ih
        · rw [if_neg hcc]
          cases q with
          | nil =>
            simp only [List.getLast?_nil, Option.getD_none] at ih
            exfalso
            have := congrArg List.length ih
            simp at this
          | cons w ws =>
            cases ws with
            | nil =>
              exfalso
              clear ih
              have : '/' ∈ x ++ '/' :: (file ++ ".asc".toList) := by simp
              revert hq this
              generalize x ++ '/' :: (file ++ ".asc".toList) = y
              intro hq this
              have key : ∀ (y w : Str), Model.PyStr.splitOn '/' y = [w] → '/' ∉ y := by
                intro y
                induction y with
                | nil => intro w _; simp
                | cons c y ih =>
                  intro w h
                  unfold Model.PyStr.splitOn at h
                  by_cases hc : c = '/'
                  · rw [if_pos hc] at h
                    injection h with _ h
                    have : Model.PyStr.splitOn '/' y ≠ [] := by
                      cases y with
                      | nil => simp [Model.PyStr.splitOn]
                      | cons d y =>
                        unfold Model.PyStr.splitOn
                        split
                        · simp
                        · split <;> simp
                    exact absurd h this
                  · rw [if_neg hc] at h
                    cases hy : Model.PyStr.splitOn '/' y with
                    | nil => rw [hy] at h; simp only at h; exfalso
                             cases y with
                             | nil => simp [Model.PyStr.splitOn] at hy
                             | cons d y =>
                               unfold Model.PyStr.splitOn at hy
                               split at hy
                               · simp at hy
                               · split at hy <;> simp at hy
                    | cons w' ws =>
                      rw [hy] at h
                      simp only at h
                      injection h with _ h
                      subst h
                      have := ih w' hy
                      simp only [List.mem_cons, not_or]
                      exact ⟨fun e => hc e.symm, this⟩
              exact key y w hq this
            | cons w2 ws => rw [List.getLast?_cons_cons] at ih ⊢; exact ih
    rcases hb with hb | ⟨d, hb⟩
    · subst hb
      rw [List.nil_append, Lemmas.PyStr.splitOn_clean _ _ hc]
      rfl
    · subst hb
      have := last d
      simpa using this
  have hk : getSubcircuit v dir (b ++ file ++ ".asy".toList) s = block v dir (b ++ file ++ ".asy".toList) := by
    unfold getSubcircuit
    rw [if_pos (.inr hs), hl]
    simp only
    rw [if_pos hs]
  rw [hk]
  unfold block
  rw [e1]
  simp only
  rw [e2]
  have hbo := Props.LibPath.searchIn_both v.w ([], file ++ ".asc".toList) ([dir, ".".toList] ++ attr v.st.custom .asc)
  refine ⟨fun he => by rw [if_pos he], ?_⟩
  intro he
  rw [if_neg (by rw [he]; decide)]
  cases hsr : Model.LibPath.searchIn v.w ([], file ++ ".asc".toList) ([dir, ".".toList] ++ attr v.st.custom .asc) with
  | none =>
    simp only
    refine ⟨(by intro q h; cases h), ?_⟩
    rw [← hbo.2, hsr]; simp
  | some f =>
    simp only
    refine ⟨?_, by rw [← hbo.2, hsr]; simp⟩
    intro q h
    injection h with h
    injection h with h
    exact ⟨f, hbo.1 f hsr, h.symm⟩

/-- C97: a symbol that names a library stands for the definition of its model in the first library of that name; with none anywhere, or no model, the
schematic cannot be opened. -/
theorem C97_library (v : Env) (dir p lib : Str) (s : Model.Asy.St) (hs : s.symbolType = some "CELL".toList ∨ s.symbolType = some "BLOCK".toList)
    (hl : Model.Asy.getLibrary s = some lib) (cs : List Str)
    (hcs : cs = [dir, ".".toList] ++ (attr v.st.sim .asc).map (fun x => joinDir x "sub".toList) ++ attr v.st.custom .asc ++
      [v.w.expanduser "~/AppData/Local/Programs/ADI/LTspice/lib.zip".toList]) :
    (Model.Asy.getModel s = none → getSubcircuit v dir p s = .error .noModel) ∧
    (∀ model, Model.Asy.getModel s = some model →
      (getSubcircuit v dir p s = .error (.notFound lib) ↔ Nowhere v.w (fileOf lib) cs) ∧
      (∀ t, getSubcircuit v dir p s = .ok t → ∃ (f : Found) (r : Option (List Model.NetTree.Item)), FirstOffer v.w (fileOf lib) cs f ∧
        Model.SubFind.findInLib model (v.libText (v.place f)) = .ok r ∧ t = .definition r)) := by
  subst hcs
  have hk : getSubcircuit v dir p s = library v dir lib s := by
    unfold getSubcircuit
    rw [if_pos hs, hl]
  rw [hk]
  unfold library
  refine ⟨fun h => by rw [h], ?_⟩
  intro model hm
  rw [hm]
  simp only
  unfold Model.LibPath.ascLibrary
  have hbo := Props.LibPath.searchIn_both v.w (fileOf lib) ([dir, ".".toList] ++ (attr v.st.sim .asc).map (fun x => joinDir x "sub".toList) ++ attr v.st.custom .asc ++
      [v.w.expanduser "~/AppData/Local/Programs/ADI/LTspice/lib.zip".toList])
  cases hsr : Model.LibPath.searchIn v.w (fileOf lib) ([dir, ".".toList] ++ (attr v.st.sim .asc).map (fun x => joinDir x "sub".toList) ++ attr v.st.custom .asc ++
      [v.w.expanduser "~/AppData/Local/Programs/ADI/LTspice/lib.zip".toList]) with
  | none =>
    simp only
    refine ⟨by rw [← hbo.2, hsr]; simp, by intro t h; cases h⟩
  | some f =>
    simp only
    cases hr : Model.SubFind.findInLib model (v.libText (v.place f)) with
    | error e =>
      simp only
      refine ⟨by rw [← hbo.2, hsr]; simp, by intro t h; cases h⟩
    | ok r =>
      simp only
      refine ⟨by rw [← hbo.2, hsr]; simp, ?_⟩
      intro t h
      injection h with h
      exact ⟨f, r, hbo.1 f hsr, hr, h.symm⟩

/-! ### The hierarchy -/

theorem each_shows (v : Env) (dir : Str) (opener : Str → Except Err (List (Str × Sub))) (ho : ∀ q subs, opener q = .ok subs → Shows v q subs) :
    ∀ (cs : List (Str × Str)) (subs : List (Str × Sub)), each v dir opener cs = .ok subs → ShowsAll v dir cs subs := by
  intro cs
  induction cs with
  | nil => intro subs h; injection h with h; subst h; exact .nil dir
  | cons c cs ih =>
    intro subs h
    obtain ⟨ref, symbol⟩ := c
    unfold each at h
    cases ha : attached v dir ref symbol with
    | error e => rw [ha] at h; cases h
    | ok t =>
      rw [ha] at h
      simp only at h
      cases hf : finish opener t with
      | error e => rw [hf] at h; cases h
      | ok s =>
        rw [hf] at h
        simp only at h
        cases hr : each v dir opener cs with
        | error e => rw [hr] at h; cases h
        | ok r =>
          rw [hr] at h
          injection h with h
          subst h
          have hrest := ih r hr
          cases t with
          | none => injection hf with hf; subst hf; exact .plain dir ref symbol cs r ha hrest
          | some t =>
            cases t with
            | nothing => injection hf with hf; subst hf; exact .nothing dir ref symbol cs r ha hrest
            | definition i => injection hf with hf; subst hf; exact .definition dir ref symbol i cs r ha hrest
            | schematic q =>
              unfold finish at hf
              simp only at hf
              cases hq : opener q with
              | error e => rw [hq] at hf; cases hf
              | ok inner =>
                rw [hq] at hf
                injection hf with hf
                subst hf
                exact .schematic dir ref symbol q inner cs r ha (ho q inner hq) hrest

/-- C97: what an opened schematic has: with every component, in the order of the file, what it stands for, down the whole hierarchy. -/
theorem C97_opened (v : Env) (n : Nat) : ∀ (p : Str) (subs : List (Str × Sub)), openSch v n p = .ok subs → Shows v p subs := by
  induction n with
  | zero => intro p subs h; cases h
  | succ n ih =>
    intro p subs h
    unfold openSch at h
    by_cases he : v.existing p = true
    · rw [if_pos he] at h
      cases hs : v.schematic p with
      | none => rw [hs] at h; cases h
      | some cs =>
        rw [hs] at h
        exact .intro p cs subs he hs (each_shows v _ _ ih cs subs h)
    · rw [if_neg he] at h; cases h

theorem each_ok (v : Env) (dir : Str) (opener : Str → Except Err (List (Str × Sub))) : ∀ (cs : List (Str × Str)),
    (∀ c ∈ cs, ∃ t, attached v dir c.1 c.2 = .ok t ∧ ∀ q, t = some (.schematic q) → ∃ subs, opener q = .ok subs) →
    ∃ subs, each v dir opener cs = .ok subs := by
  intro cs
  induction cs with
  | nil => intro _; exact ⟨[], rfl⟩
  | cons c cs ih =>
    intro h
    obtain ⟨ref, symbol⟩ := c
    obtain ⟨t, ha, hq⟩ := h (ref, symbol) (by simp)
    obtain ⟨r, hr⟩ := ih (fun c hc => h c (by simp [hc]))
    have hf : ∃ s, finish opener t = .ok s := by
      cases t with
      | none => exact ⟨_, rfl⟩
      | some t =>
        cases t with
        | nothing => exact ⟨_, rfl⟩
        | definition i => exact ⟨_, rfl⟩
        | schematic q =>
          obtain ⟨subs, hs⟩ := hq q rfl
          exact ⟨.schematic q subs, by unfold finish; simp only; rw [hs]⟩
    obtain ⟨s, hs⟩ := hf
    refine ⟨(ref, s) :: r, ?_⟩
    simp only at ha
    unfold each
    rw [ha]
    simp only
    rw [hs]
    simp only
    rw [hr]

/-- C97: a hierarchy of schematics, of any depth, is opened if every symbol and every library of it is found and no schematic stands inside itself
(`rank` decreases from a schematic to those it contains), as long as the recursion limit exceeds its depth. -/
theorem C97_opens (v : Env) (P : Str → Prop) (rank : Str → Nat)
    (h : ∀ p, P p → v.existing p = true ∧ ∃ cs, v.schematic p = some cs ∧ ∀ c ∈ cs, ∃ t, attached v (dirOf p) c.1 c.2 = .ok t ∧
      ∀ q, t = some (.schematic q) → P q ∧ rank q < rank p) :
    ∀ (n : Nat) (p : Str), P p → rank p < n → ∃ subs, openSch v n p = .ok subs ∧ Shows v p subs := by
  intro n
  induction n with
  | zero => intro p _ hr; cases hr
  | succ n ih =>
    intro p hp hr
    obtain ⟨he, cs, hs, hc⟩ := h p hp
    have : ∃ subs, openSch v (n + 1) p = .ok subs := by
      unfold openSch
      rw [if_pos he, hs]
      apply each_ok
      intro c hcm
      obtain ⟨t, ha, hq⟩ := hc c hcm
      refine ⟨t, ha, ?_⟩
      intro q ht
      obtain ⟨h1, h2⟩ := hq q ht
      obtain ⟨subs, hsub, _⟩ := ih q h1 (Nat.lt_of_lt_of_le h2 (Nat.lt_succ_iff.mp hr))
      exact ⟨subs, hsub⟩
    obtain ⟨subs, hsub⟩ := this
    exact ⟨subs, hsub, C97_opened v (n + 1) p subs hsub⟩

theorem needs_ok (v : Env) (n : Nat) (p q : Str) (h : Needs v p q) (subs : List (Str × Sub)) (ho : openSch v n p = .ok subs) :
    ∃ m subs', m < n ∧ openSch v m q = .ok subs' := by
  obtain ⟨cs, ref, symbol, h1, h2, h3⟩ := h
  cases n with
  | zero => cases ho
  | succ n =>
    refine ⟨n, ?_⟩
    unfold openSch at ho
    by_cases he : v.existing p = true
    · rw [if_pos he, h1] at ho
      simp only at ho
      clear h1
      generalize openSch v n = opener at ho ⊢
      induction cs generalizing subs with
      | nil => simp at h2
      | cons c cs ih =>
        obtain ⟨r0, s0⟩ := c
        unfold each at ho
        cases ha : attached v (dirOf p) r0 s0 with
        | error e => rw [ha] at ho; cases ho
        | ok t =>
          rw [ha] at ho
          simp only at ho
          cases hf : finish opener t with
          | error e => rw [hf] at ho; cases ho
          | ok s =>
            rw [hf] at ho
            simp only at ho
            cases hr : each v (dirOf p) opener cs with
            | error e => rw [hr] at ho; cases ho
            | ok r =>
              rcases List.mem_cons.mp h2 with hm | hm
              · injection hm with m1 m2
                subst m1 m2
                rw [h3] at ha
                injection ha with ha
                subst ha
                unfold finish at hf
                simp only at hf
                cases hq : opener q with
                | error e => rw [hq] at hf; cases hf
                | ok inner => exact ⟨inner, by omega, rfl⟩
              · exact ih r hm hr
    · rw [if_neg he] at ho; cases ho

/-- C97: a schematic that contains itself, directly or through others, can never be opened, however large the recursion limit is. -/
theorem C97_cycle (v : Env) (p : Str) (h : Relation.TransGen (Needs v) p p) (n : Nat) (subs : List (Str × Sub)) : openSch v n p ≠ .ok subs := by
  have chain : ∀ q, Relation.TransGen (Needs v) p q → ∀ n subs, openSch v n p = .ok subs → ∃ m subs', m < n ∧ openSch v m q = .ok subs' := by
    intro q hq
    induction hq with
    | single h1 => intro n subs ho; exact needs_ok v n p _ h1 subs ho
    | tail _ h1 ih =>
      intro n subs ho
      obtain ⟨m, s', hm, hs⟩ := ih n subs ho
      obtain ⟨m', s'', hm', hs'⟩ := needs_ok v m _ _ h1 s' hs
      exact ⟨m', s'', Nat.lt_trans hm' hm, hs'⟩
  revert subs
  induction n using Nat.strong_induction_on with
  | _ n ih =>
    intro subs ho
    obtain ⟨m, s', hm, hs⟩ := chain p h n subs ho
    exact ih m hm s' hs

/-- C97: one component that cannot be resolved, anywhere in the hierarchy, and the schematic is not opened. -/
theorem C97_refused (v : Env) (p q : Str) (h : Relation.ReflTransGen (Needs v) p q) (cs : List (Str × Str)) (ref symbol : Str) (e : Err)
    (hs : v.schematic q = some cs) (hm : (ref, symbol) ∈ cs) (he : attached v (dirOf q) ref symbol = .error e) (n : Nat) (subs : List (Str × Sub)) :
    openSch v n p ≠ .ok subs := by
  have base : ∀ n subs, openSch v n q ≠ .ok subs := by
    intro n subs ho
    have := C97_opened v n q subs ho
    cases this with
    | intro _ cs' _ _ h2 h3 =>
      rw [hs] at h2
      injection h2 with h2
      subst h2
      clear hs ho
      induction cs generalizing subs with
      | nil => simp at hm
      | cons c cs ih =>
        rcases List.mem_cons.mp hm with rfl | hm2
        · cases h3 with
          | plain _ _ _ _ _ ha _ => rw [he] at ha; cases ha
          | nothing _ _ _ _ _ ha _ => rw [he] at ha; cases ha
          | definition _ _ _ _ _ _ ha _ => rw [he] at ha; cases ha
          | schematic _ _ _ _ _ _ _ ha _ _ => rw [he] at ha; cases ha
        · cases h3 with
          | plain _ _ _ _ _ _ hr => exact ih hm2 _ hr
          | nothing _ _ _ _ _ _ hr => exact ih hm2 _ hr
          | definition _ _ _ _ _ _ _ hr => exact ih hm2 _ hr
          | schematic _ _ _ _ _ _ _ _ _ hr => exact ih hm2 _ hr
  rcases Relation.reflTransGen_iff_eq_or_transGen.mp h with rfl | ht
  · exact base n subs
  · intro ho
    have chain : ∀ q, Relation.TransGen (Needs v) p q → ∃ m subs', openSch v m q = .ok subs' := by
      intro q hq
      induction hq with
      | single h1 => obtain ⟨m, s', _, hs⟩ := needs_ok v n p _ h1 subs ho; exact ⟨m, s', hs⟩
      | tail _ h1 ih =>
        obtain ⟨m, s', hs⟩ := ih
        obtain ⟨m', s'', _, hs'⟩ := needs_ok v m _ _ h1 s' hs
        exact ⟨m', s'', hs'⟩
    obtain ⟨m, s', hs'⟩ := chain q ht
    exact base m s' hs'

/-! ### Samples -/

def cell : Model.Asy.St := { symbolType := some "CELL".toList, attrs := [("Prefix".toList, "R".toList)] }
def blockSym : Model.Asy.St := { symbolType := some "BLOCK".toList }

def comps : List (Str × List (Str × Str)) :=
  [("p/main.asc".toList, [("R1".toList, "res".toList), ("X1".toList, "amp".toList)]), ("p/amp.asc".toList, [("R1".toList, "res".toList)]),
   ("p/loop.asc".toList, [("X1".toList, "loop".toList)]), ("p/bad.asc".toList, [("R1".toList, "none".toList)])]

def env : Env where
  st := Model.LibPath.initial [] []
  w := { isDir := fun _ => true, expanduser := id,
         container := fun c => if c = "p".toList then .dir (.mk (["res.asy", "amp.asy", "loop.asy"].map String.toList) []) else .absent }
  place := fun f => match f.2 with | .path q => f.1 ++ '/' :: q.flatten | .entry n => n
  existing := fun q => (comps.map Prod.fst).contains q
  symbolAt := fun q => if q = "p/res.asy".toList then some cell else some blockSym
  libText := fun _ => none
  schematic := fun q => comps.lookup q

def shape : Except Err (List (Str × Sub)) → List Str
  | .ok [(a, .plain), (b, .schematic q [(c, .plain)])] => [a, b, q, c]
  | .error (.notFound q) => ["missing".toList, q]
  | .error .recursion => ["recursion".toList]
  | _ => []

/-- C97 sample: a schematic with a resistor and a block, a schematic with a block of itself, a symbol that is nowhere. -/
theorem C97_sample : shape (openSch env 5 "p/main.asc".toList) = ["R1", "X1", "p/amp.asc", "R1"].map String.toList ∧
    shape (openSch env 100 "p/loop.asc".toList) = ["recursion".toList] ∧ shape (openSch env 5 "p/bad.asc".toList) = ["missing", "none.asy"].map String.toList ∧
    symbolFile "Misc\\\\My\\ parts\\r".toList = "Misc/My parts/r.asy".toList ∧ dirOf "a/b/c.asc".toList = "a/b".toList := by
  refine ⟨?_, ?_, ?_, ?_, ?_⟩ <;> decide +kernel

/-- C97 limit: three backslashes leave an empty directory in the path, and a directory whose name begins with a blank is lost. -/
theorem C97_limits : symbolFile "a\\\\\\b".toList = "a//b.asy".toList ∧ symbolFile "a\\ b".toList = "a b.asy".toList ∧
    symbolFile "a/ b\\c".toList = "a b/c.asy".toList := by
  refine ⟨?_, ?_, ?_⟩ <;> decide +kernel

theorem loop_needs : Needs env "p/loop.asc".toList "p/loop.asc".toList := by
  refine ⟨[("X1".toList, "loop".toList)], "X1".toList, "loop".toList, by decide +kernel, by simp, ?_⟩
  rfl

/-- C97 sample: the hypotheses. -/
theorem C97_applies : Written "Misc\\\\My\\ parts\\r".toList "Misc/My parts/r".toList ∧
    Relation.TransGen (Needs env) "p/loop.asc".toList "p/loop.asc".toList ∧
    (∃ (P : Str → Prop) (rank : Str → Nat), P "p/main.asc".toList ∧
      ∀ p, P p → env.existing p = true ∧ ∃ cs, env.schematic p = some cs ∧ ∀ c ∈ cs, ∃ t, attached env (dirOf p) c.1 c.2 = .ok t ∧
        ∀ q, t = some (.schematic q) → P q ∧ rank q < rank p) := by
  refine ⟨?_, .single loop_needs, ?_⟩
  · have nb : ∀ c : Char, c ≠ '\\' → c ≠ '/' → ∀ s p, Written s p → Written (c :: s) (c :: p) := fun c h1 h2 s p h => .char c s p h1 h2 h
    have e : ∀ c : Char, Follows (c :: []) ↔ c ≠ '\\' ∧ c ≠ '/' ∧ c ≠ ' ' := by intro c; simp [Follows]
    refine nb 'M' (by decide) (by decide) _ _ (nb 'i' (by decide) (by decide) _ _ (nb 's' (by decide) (by decide) _ _ (nb 'c' (by decide) (by decide) _ _ ?_)))
    refine .double _ _ ⟨by decide, by decide, by decide⟩ ?_
    refine nb 'M' (by decide) (by decide) _ _ (nb 'y' (by decide) (by decide) _ _ (.blank _ _ ?_))
    refine nb 'p' (by decide) (by decide) _ _ (nb 'a' (by decide) (by decide) _ _ (nb 'r' (by decide) (by decide) _ _ (nb 't' (by decide) (by decide) _ _ (nb 's' (by decide) (by decide) _ _ ?_))))
    refine .sep _ _ ⟨by decide, by decide, by decide⟩ (nb 'r' (by decide) (by decide) _ _ .nil)
  · refine ⟨fun p => p = "p/main.asc".toList ∨ p = "p/amp.asc".toList, fun p => if p = "p/main.asc".toList then 1 else 0, .inl rfl, ?_⟩
    have hamp : attached env "p".toList "X1".toList "amp".toList = .ok (some (.schematic "p/amp.asc".toList)) := rfl
    have hres : attached env "p".toList "R1".toList "res".toList = .ok none := rfl
    have d1 : dirOf "p/main.asc".toList = "p".toList := by decide +kernel
    have d2 : dirOf "p/amp.asc".toList = "p".toList := by decide +kernel
    rintro p (rfl | rfl)
    · refine ⟨by decide +kernel, [("R1".toList, "res".toList), ("X1".toList, "amp".toList)], by decide +kernel, ?_⟩
      rw [d1]
      intro c hc
      rcases List.mem_cons.mp hc with rfl | hc
      · exact ⟨none, hres, by intro q h; cases h⟩
      · rcases List.mem_cons.mp hc with rfl | hc
        · refine ⟨_, hamp, ?_⟩
          intro q h
          injection h with h
          injection h with h
          subst h
          exact ⟨.inr rfl, by decide +kernel⟩
        · simp at hc
    · refine ⟨by decide +kernel, [("R1".toList, "res".toList)], by decide +kernel, ?_⟩
      rw [d2]
      intro c hc
      rcases List.mem_cons.mp hc with rfl | hc
      · exact ⟨none, hres, by intro q h; cases h⟩
      · simp at hc

end Props.AscSub
