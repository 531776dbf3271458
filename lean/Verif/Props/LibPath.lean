import Verif.Spec.LibPath
import Verif.Props.Search
import Verif.Lemmas.Qsch
/-
C88: the directories in which the editors look for libraries and symbols.
-/
namespace Props.LibPath
open Model.LibPath Spec.LibPath
open Spec.Files (Offers)
open Model.PyStr
open Model.NetTree (Item)

theorem head_lit (c : Char) (l : Str) : ([c].isPrefixOf l = true) ↔ l.head? = some c := by
  cases l with
  | nil => simp
  | cons x xs =>
    show ((c == x) && ([] : Str).isPrefixOf xs) = true ↔ some x = some c
    rw [Bool.and_eq_true, beq_iff_eq, Option.some.injEq]
    exact ⟨fun h => h.1.symm, fun h => ⟨h.symm, rfl⟩⟩

theorem findSome_same (v u : Cls → Option (List Str)) : ∀ (l : List Cls), (∀ x ∈ l, v x = u x) → l.findSome? v = l.findSome? u := by
  intro l
  induction l with
  | nil => intro _; rfl
  | cons x l ih =>
    intro h
    rw [List.findSome?_cons, List.findSome?_cons, h x (by simp), ih (fun y hy => h y (by simp [hy]))]

/-! The search -/

theorem findIn_offers (p : List Str) (n : Str) (c : Model.Search.Container) :
    (∀ h, Model.Search.findIn p n c = some h → Offers p n c h) ∧ (Model.Search.findIn p n c = none → ∀ h, ¬ Offers p n c h) := by
  constructor
  · intro h hh
    obtain ⟨⟨c', h1, h2⟩, _⟩ := Props.Search.C44_first_container p n [c] 0 h (by unfold Model.Search.search; rw [hh])
    simp only [List.getElem?_cons_zero, Option.some.injEq] at h1
    subst h1; exact h2
  · intro hn h ho
    exact (Props.Search.C44_none_iff p n [c]).1 (by unfold Model.Search.search; rw [hn]; rfl) c (by simp) h ho

theorem searchIn_some (w : World) (f : File) : ∀ (cs : List Str) (r : Found), searchIn w f cs = some r → FirstOffer w f cs r := by
  intro cs
  induction cs with
  | nil => intro r h; simp [searchIn] at h
  | cons c cs ih =>
    intro r h
    unfold searchIn at h
    cases hf : Model.Search.findIn f.1 f.2 (w.container c) with
    | some x =>
      rw [hf] at h
      injection h with h
      subst h
      exact ⟨[], cs, rfl, (findIn_offers _ _ _).1 _ hf, by simp⟩
    | none =>
      rw [hf] at h
      obtain ⟨a, b, h1, h2, h3⟩ := ih r h
      refine ⟨c :: a, b, by rw [h1]; rfl, h2, ?_⟩
      intro x hx
      rcases List.mem_cons.1 hx with rfl | hx
      · exact (findIn_offers _ _ _).2 hf
      · exact h3 x hx

theorem searchIn_none (w : World) (f : File) : ∀ (cs : List Str), searchIn w f cs = none ↔ Nowhere w f cs := by
  intro cs
  induction cs with
  | nil => simp [searchIn, Nowhere]
  | cons c cs ih =>
    unfold searchIn
    cases hf : Model.Search.findIn f.1 f.2 (w.container c) with
    | some x =>
      simp only [reduceCtorEq, false_iff]
      intro h
      exact h c (by simp) x ((findIn_offers _ _ _).1 _ hf)
    | none =>
      show searchIn w f cs = none ↔ _
      rw [ih]
      constructor
      · intro h x hx
        rcases List.mem_cons.1 hx with rfl | hx
        · exact (findIn_offers _ _ _).2 hf
        · exact h x hx
      · intro h x hx
        exact h x (List.mem_cons_of_mem _ hx)

theorem searchIn_both (w : World) (f : File) (cs : List Str) :
    (∀ r, searchIn w f cs = some r → FirstOffer w f cs r) ∧ (searchIn w f cs = none ↔ Nowhere w f cs) :=
  ⟨searchIn_some w f cs, searchIn_none w f cs⟩

theorem searchIn_own (w : World) (f : File) (c : Str) (cs : List Str) (h : Model.Search.Hit) (ho : Offers f.1 f.2 (w.container c) h) :
    ∃ h', searchIn w f (c :: cs) = some (c, h') := by
  unfold searchIn
  cases hf : Model.Search.findIn f.1 f.2 (w.container c) with
  | some x => exact ⟨x, rfl⟩
  | none => exact absurd ho ((findIn_offers _ _ _).2 hf h)

/-! ### C88: the paths -/

/-- C88: `set_custom_library_paths` replaces the custom paths of its class by those of the given paths that are directories, in their order, with the home
directory expanded. The paths of the simulator and those of unrelated classes stay as they were. -/
theorem C88_set_custom (s : St) (w : World) (c : Cls) (paths : List Str) :
    attr (setCustom s w c paths).custom c =
      (paths.map (fun p => if p.head? = some '~' then w.expanduser p else p)).filter w.isDir ∧
    (∀ d, attr (setCustom s w c paths).sim d = attr s.sim d) ∧
    (∀ d, c ∉ mro d → attr (setCustom s w c paths).custom d = attr s.custom d) := by
  refine ⟨?_, fun d => rfl, ?_⟩
  · have h1 : attr (setCustom s w c paths).custom c = paths.filterMap (checked w) := by
      cases c <;> simp [attr, mro, setCustom, assign]
    rw [h1]
    clear h1
    induction paths with
    | nil => rfl
    | cons p ps ih =>
      have hp : ("~".toList.isPrefixOf p = true) ↔ p.head? = some '~' := head_lit '~' p
      rw [List.map_cons, List.filterMap_cons, List.filter_cons]
      unfold checked
      by_cases hh : p.head? = some '~'
      · simp only [hp.2 hh, hh, if_true]
        by_cases hd : w.isDir (w.expanduser p) = true
        · simp only [hd, if_true]; rw [← ih]; rfl
        · simp only [hd]; rw [← ih]; rfl
      · have hn : "~".toList.isPrefixOf p = false := by rw [← Bool.not_eq_true, hp]; exact hh
        simp only [hn, hh, if_false, Bool.false_eq_true]
        by_cases hd : w.isDir p = true
        · simp only [hd, if_true]; rw [← ih]; rfl
        · simp only [hd]; rw [← ih]; rfl
  · intro d hd
    unfold attr setCustom
    congr 1
    apply findSome_same
    intro x hx
    show assign s.custom c _ x = s.custom x
    unfold assign
    rw [if_neg]
    rintro rfl
    exact hd hx

/-- C88: `prepare_for_simulator` replaces the simulator's paths of its class and changes nothing else. -/
theorem C88_prepare (s : St) (c : Cls) (paths : List Str) :
    attr (prepare s c paths).sim c = paths ∧ (∀ d, attr (prepare s c paths).custom d = attr s.custom d) ∧
    (∀ d, c ∉ mro d → attr (prepare s c paths).sim d = attr s.sim d) := by
  refine ⟨by cases c <;> simp [attr, mro, prepare, assign], fun d => rfl, ?_⟩
  intro d hd
  unfold attr prepare
  congr 1
  apply findSome_same
  intro x hx
  show assign s.sim c _ x = s.sim x
  unfold assign
  rw [if_neg]
  rintro rfl
  exact hd hx

/-- C88: a class that was given paths of its own uses these; any other class uses those of the class it is derived from. -/
theorem C88_inherited (v : Cls → Option (List Str)) (c : Cls) :
    (∀ l, v c = some l → attr v c = l) ∧ (v c = none → ∀ p, parent c = some p → attr v c = attr v p) ∧ (v c = none → parent c = none → attr v c = []) := by
  refine ⟨?_, ?_, ?_⟩
  · intro l h; cases c <;> simp [attr, mro, h]
  · intro h p hp
    cases c <;> simp only [parent, Option.some.injEq, reduceCtorEq] at hp <;> subst hp <;> simp [attr, mro, h]
  · intro h hp
    cases c <;> simp only [parent, reduceCtorEq] at hp
    simp [attr, mro, h]

/-! ### C88: the order -/

/-- C88: the library of a netlist is looked for in the directory of the netlist, the current directory, the simulator's paths and the custom paths, in this
order; the first that has it counts. -/
theorem C88_netlist_library (s : St) (w : World) (c : Cls) (dir : Str) (f : File) :
    (∀ r, findLibrary s w (some (c, some dir)) f = some r → FirstOffer w f (dir :: ".".toList :: attr s.sim c ++ attr s.custom c) r) ∧
    (findLibrary s w (some (c, some dir)) f = none ↔ Nowhere w f (dir :: ".".toList :: attr s.sim c ++ attr s.custom c)) := by
  have : findLibrary s w (some (c, some dir)) f = searchIn w f (dir :: ".".toList :: attr s.sim c ++ attr s.custom c) := by
    show searchIn w f _ = _
    simp
  rw [this]
  exact searchIn_both _ _ _

/-- C88: the same for the library of an LTspice schematic, where `/sub` is put after the simulator's paths and LTspice's archive comes last. -/
theorem C88_schematic_library (s : St) (w : World) (dir : Str) (f : File) :
    let places := dir :: ".".toList :: (attr s.sim .asc).map (joinDir · "sub".toList) ++ attr s.custom .asc ++
      [w.expanduser "~/AppData/Local/Programs/ADI/LTspice/lib.zip".toList]
    (∀ r, ascLibrary s w dir f = some r → FirstOffer w f places r) ∧ (ascLibrary s w dir f = none ↔ Nowhere w f places) :=
  searchIn_both _ _ _

/-- C88: the symbol of an LTspice schematic that was not found before in this process: `/sym` is put after the simulator's paths. -/
theorem C88_symbol (s : St) (w : World) (dir : Str) (f : File) (hc : s.cache.lookup f = none) :
    let places := dir :: ".".toList :: (attr s.sim .asc).map (joinDir · "sym".toList) ++ attr s.custom .asc
    (∀ r, (ascSymbol s w dir f).1 = some r → FirstOffer w f places r) ∧ ((ascSymbol s w dir f).1 = none ↔ Nowhere w f places) := by
  have : (ascSymbol s w dir f).1 = ascSymbolSearch s w dir f := by
    unfold ascSymbol
    rw [hc]
    cases h : ascSymbolSearch s w dir f with
    | none => rfl
    | some p => rfl
  rw [this]
  exact searchIn_both _ _ _

/-- C88: the file of a QSPICE sub-schematic: the given directory, the current one, the custom paths and (other than in netlists) the simulator's paths last. -/
theorem C88_qsch_file (s : St) (w : World) (dir : Str) (f : File) (hd : dir ≠ ".".toList) :
    let places := dir :: ".".toList :: attr s.custom .qsch ++ attr s.sim .qsch
    (∀ r, qschFile s w (some dir) f = some r → FirstOffer w f places r) ∧ (qschFile s w (some dir) f = none ↔ Nowhere w f places) := by
  have : qschFile s w (some dir) f = searchIn w f (dir :: ".".toList :: attr s.custom .qsch ++ attr s.sim .qsch) := by
    unfold qschFile
    simp only [if_neg hd]
    rfl
  rw [this]
  exact searchIn_both _ _ _

/-- C88: whatever the paths, a library in the directory of the circuit is found there. -/
theorem C88_own_directory_first (s : St) (w : World) (c : Cls) (dir : Str) (f : File) (h : Model.Search.Hit)
    (ho : Offers f.1 f.2 (w.container dir) h) :
    (∃ h', findLibrary s w (some (c, some dir)) f = some (dir, h')) ∧ (∃ h', ascLibrary s w dir f = some (dir, h')) := by
  constructor
  · show ∃ h', searchIn w f (dir :: _) = _
    exact searchIn_own w f dir _ h ho
  · show ∃ h', searchIn w f (dir :: _) = _
    exact searchIn_own w f dir _ h ho

/-! ### C88: which program wrote a netlist -/

theorem ends_iff (l e : Str) : endsWith e (upper (strip l)) = true ↔ Ends l e := by
  unfold endsWith Ends
  rw [List.isPrefixOf_iff_prefix, List.reverse_prefix]
  exact ⟨fun ⟨t, h⟩ => ⟨t, h.symm⟩, fun ⟨t, h⟩ => ⟨t, h.symm⟩⟩

theorem mentions_iff (l e : Str) (he : e ≠ []) : contains e (upper (strip l)) = true ↔ Mentions l e := by
  rw [Lemmas.Qsch.contains_iff _ _ he]
  unfold Mentions
  exact ⟨fun ⟨a, b, h⟩ => ⟨a, b, h.symm⟩, fun ⟨a, b, h⟩ => ⟨a, b, h.symm⟩⟩

theorem ends_excl (l : Str) : ¬ (Ends l ".ASC".toList ∧ Ends l ".QSCH".toList) := by
  rintro ⟨⟨a, h1⟩, ⟨b, h2⟩⟩
  rw [h1] at h2
  have := congrArg List.getLast? h2
  simp at this

theorem writtenBy_iff (l : Str) (t : Tool) : writtenBy l = some t ↔ Says l t := by
  have hs : ("*".toList.isPrefixOf l = true) ↔ l.head? = some '*' := head_lit '*' l
  unfold writtenBy
  by_cases h0 : l.head? = some '*'
  · simp only [hs.2 h0, if_true]
    by_cases h1 : Ends l ".ASC".toList
    · simp only [(ends_iff _ _).2 h1, if_true]
      have h2 : ¬ Ends l ".QSCH".toList := fun h => ends_excl l ⟨h1, h⟩
      cases t <;> simp [Says, h0, h1, h2] <;> tauto
    · have n1 := h1
      rw [← ends_iff, Bool.not_eq_true] at n1
      simp only [n1, Bool.false_eq_true, if_false]
      by_cases h2 : Ends l ".QSCH".toList
      · simp only [(ends_iff _ _).2 h2, if_true]
        cases t <;> simp [Says, h0, h1, h2] <;> tauto
      · have n2 := h2
        rw [← ends_iff, Bool.not_eq_true] at n2
        simp only [n2, Bool.false_eq_true, if_false]
        by_cases h3 : Mentions l "XYCE".toList
        · simp only [(mentions_iff _ _ (by decide)).2 h3, if_true]
          cases t <;> simp [Says, h0, h1, h2, h3] <;> tauto
        · have n3 := h3
          rw [← mentions_iff _ _ (by decide), Bool.not_eq_true] at n3
          simp only [n3, Bool.false_eq_true, if_false]
          by_cases h4 : Mentions l "NGSPICE".toList
          · simp only [(mentions_iff _ _ (by decide)).2 h4, if_true]
            cases t <;> simp [Says, h0, h1, h2, h3, h4] <;> tauto
          · have n4 := h4
            rw [← mentions_iff _ _ (by decide), Bool.not_eq_true] at n4
            simp only [n4, Bool.false_eq_true, if_false]
            cases t <;> simp [Says, h0, h1, h2, h3, h4] <;> tauto
  · have hn : "*".toList.isPrefixOf l = false := by rw [← Bool.not_eq_true, hs]; exact h0
    simp only [hn, Bool.false_eq_true, if_false]
    cases t <;> simp [Says, h0]

theorem detectIn_iff (t : Tool) : ∀ (is : List Item), detectIn is = some t ↔
    ∃ (a : List Item) (l : Str) (b : List Item), is = a ++ .text l :: b ∧ Says l t ∧ ∀ l', Item.text l' ∈ a → ∀ t', ¬ Says l' t' := by
  intro is
  induction is with
  | nil => simp [detectIn]
  | cons i is ih =>
    have other : detectIn (i :: is) = detectIn is → (∀ l t', i = .text l → ¬ Says l t') →
        (detectIn (i :: is) = some t ↔ ∃ (a : List Item) (l : Str) (b : List Item), i :: is = a ++ .text l :: b ∧ Says l t ∧
          ∀ l', Item.text l' ∈ a → ∀ t', ¬ Says l' t') := by
      intro he hi
      rw [he, ih]
      constructor
      · rintro ⟨a, l, b, h1, h2, h3⟩
        refine ⟨i :: a, l, b, by rw [h1]; rfl, h2, ?_⟩
        intro l' hl' t'
        rcases List.mem_cons.1 hl' with h | h
        · exact hi l' t' h.symm
        · exact h3 l' h t'
      · rintro ⟨a, l, b, h1, h2, h3⟩
        cases a with
        | nil =>
          simp only [List.nil_append, List.cons.injEq] at h1
          exact absurd h2 (hi l t h1.1)
        | cons x a =>
          simp only [List.cons_append, List.cons.injEq] at h1
          exact ⟨a, l, b, h1.2, h2, fun l' hl' => h3 l' (List.mem_cons_of_mem _ hl')⟩
    cases i with
    | text s =>
      cases hw : writtenBy s with
      | none =>
        refine other (by simp [detectIn, hw]) ?_
        intro l t' hl hs
        injection hl with hl
        subst hl
        rw [← writtenBy_iff, hw] at hs
        simp at hs
      | some u =>
        have hd : detectIn (Item.text s :: is) = some u := by simp [detectIn, hw]
        rw [hd]
        constructor
        · intro h
          injection h with h
          subst h
          exact ⟨[], s, is, rfl, (writtenBy_iff _ _).1 hw, by simp⟩
        · rintro ⟨a, l, b, h1, h2, h3⟩
          cases a with
          | nil =>
            simp only [List.nil_append, List.cons.injEq, Item.text.injEq] at h1
            rw [← writtenBy_iff, ← h1.1, hw] at h2
            exact h2
          | cons x a =>
            simp only [List.cons_append, List.cons.injEq] at h1
            exact absurd ((writtenBy_iff s u).1 hw) (h3 s (by rw [← h1.1]; simp) u)
    | prim s => exact other rfl (by simp)
    | comp s => exact other rfl (by simp)
    | ctrl s => exact other rfl (by simp)
    | incl s => exact other rfl (by simp)
    | sub s => exact other rfl (by simp)

/-- C88: the program that wrote a netlist is the one named by the first comment, among the first five elements, that names one. -/
theorem C88_program (items : List Item) (t : Tool) :
    detect items = some t ↔ ∃ (a : List Item) (l : Str) (b : List Item), items = a ++ .text l :: b ∧ a.length < 5 ∧ Says l t ∧
      ∀ l', Item.text l' ∈ a → ∀ t', ¬ Says l' t' := by
  unfold detect
  rw [detectIn_iff]
  constructor
  · rintro ⟨a, l, b, h1, h2, h3⟩
    refine ⟨a, l, b ++ items.drop 5, ?_, ?_, h2, h3⟩
    · have := List.take_append_drop 5 items
      rw [h1] at this
      rw [← List.cons_append, ← List.append_assoc]
      exact this.symm
    · have := congrArg List.length h1
      simp only [List.length_take, List.length_append, List.length_cons] at this
      omega
  · rintro ⟨a, l, b, h1, h2, h3, h4⟩
    refine ⟨a, l, b.take (4 - a.length), ?_, h3, h4⟩
    rw [h1, List.take_append, List.take_of_length_le (by omega)]
    congr 1
    rw [show 5 - a.length = (4 - a.length) + 1 by omega, List.take_succ_cons]

/-- C88: opening a netlist while there are no custom paths makes the library directories of its program the custom paths of the class of the editor; if the
program is not known, or has no paths, or there are custom paths already, nothing changes. -/
theorem C88_opened (s : St) (w : World) (c : Cls) (defaults : Tool → List Str) (items : List Item) :
    (∀ t, attr s.custom c = [] → detect items = some t → defaults t ≠ [] →
      opened s w c defaults items = setCustom s w c (defaults t)) ∧
    (attr s.custom c ≠ [] ∨ detect items = none ∨ (∃ t, detect items = some t ∧ defaults t = []) → opened s w c defaults items = s) := by
  constructor
  · intro t h1 h2 h3
    unfold opened
    rw [h1, h2]
    show (if (defaults t).isEmpty = true then s else _) = _
    rw [if_neg (by simpa using h3)]
  · intro h
    unfold opened
    cases hc : attr s.custom c with
    | cons x xs => rfl
    | nil =>
      rcases h with h | h | ⟨t, h1, h2⟩
      · exact absurd hc h
      · rw [h]; rfl
      · rw [h1]
        show (if (defaults t).isEmpty = true then s else _) = _
        rw [h2]; rfl

/-! ### C88: histories -/

theorem cache_kept (s : St) (f : File) (p : Found) (h : s.cache.lookup f = some p) (e : Event) : (step s e).cache.lookup f = some p := by
  cases e with
  | setCustom w c ps => exact h
  | prepare c ps => exact h
  | opened w c d is =>
    show (opened s w c d is).cache.lookup f = _
    unfold opened
    split_ifs
    · cases detect is with
      | none => exact h
      | some t =>
        show (if (d t).isEmpty then s else setCustom s w c (d t)).cache.lookup f = _
        split_ifs <;> exact h
    · exact h
  | symbol w dir g =>
    show (ascSymbol s w dir g).2.cache.lookup f = _
    unfold ascSymbol
    cases hg : s.cache.lookup g with
    | some q => exact h
    | none =>
      cases hs : ascSymbolSearch s w dir g with
      | none => exact h
      | some q =>
        show (s.cache ++ [(g, q)]).lookup f = _
        rw [List.lookup_append, h]
        rfl

/-- C88: a symbol that was found once is the answer to every later question for this name in the process: other directories, other paths, and what has
happened to the file since then do not count. -/
theorem C88_symbol_sticks (s : St) (w : World) (dir : Str) (f : File) (p : Found) (h : (ascSymbol s w dir f).1 = some p)
    (es : List Event) (w' : World) (dir' : Str) : (ascSymbol (run (ascSymbol s w dir f).2 es) w' dir' f).1 = some p := by
  have h0 : (ascSymbol s w dir f).2.cache.lookup f = some p := by
    unfold ascSymbol at h ⊢
    cases hg : s.cache.lookup f with
    | some q => rw [hg] at h; simp only at h ⊢; rw [hg]; exact h
    | none =>
      rw [hg] at h
      cases hs : ascSymbolSearch s w dir f with
      | none => rw [hs] at h; simp at h
      | some q =>
        rw [hs] at h
        simp only [Option.some.injEq] at h
        subst h
        show (s.cache ++ [(f, q)]).lookup f = _
        rw [List.lookup_append, hg]
        simp
  have hr : ∀ (es : List Event) (s : St), s.cache.lookup f = some p → (run s es).cache.lookup f = some p := by
    intro es
    induction es with
    | nil => intro s h; exact h
    | cons e es ih => intro s h; exact ih _ (cache_kept s f p h e)
  have := hr es _ h0
  generalize run (ascSymbol s w dir f).2 es = s' at this ⊢
  unfold ascSymbol
  rw [this]

/-- C88: once there are custom paths, opening netlists never changes them, whatever wrote them. -/
theorem C88_first_netlist_decides (s : St) (c : Cls) (hc : attr s.custom c ≠ []) (es : List (World × (Tool → List Str) × List Item)) :
    run s (es.map (fun e => .opened e.1 c e.2.1 e.2.2)) = s := by
  induction es with
  | nil => rfl
  | cons e es ih =>
    show run (opened s e.1 c e.2.1 e.2.2) _ = s
    rw [(C88_opened s e.1 c e.2.1 e.2.2).2 (.inl hc)]
    exact ih

/-! Samples -/

/-- Two projects, each with a symbol `x.asy` of its own. -/
def projects : World where
  isDir := fun _ => true
  container := fun n => if n = "a".toList ∨ n = "b".toList ∨ n = "q".toList then .dir (.mk ["x.asy".toList] []) else .absent
  expanduser := id

/-- C88, limits: the second schematic opened gets the symbol of the first one's directory although it has one of its own; a QSPICE netlist opened after an
LTspice netlist is searched for in the libraries of LTspice only. -/
theorem C88_limits :
    ((ascSymbol (ascSymbol (initial [] []) projects "a".toList ([], "x.asy".toList)).2 projects "b".toList ([], "x.asy".toList)).1 =
      some ("a".toList, .path ["x.asy".toList])) ∧
    ((ascSymbol (initial [] []) projects "b".toList ([], "x.asy".toList)).1 = some ("b".toList, .path ["x.asy".toList])) ∧
    (let defaults : Tool → List Str := fun t => if t = .qspice then ["q".toList] else ["l".toList]
     let lt : List Item := [.text "* /home/me/a.asc\n".toList]
     let qs : List Item := [.text "* /home/me/b.qsch\n".toList]
     let s0 := initial [] []
     findLibrary (run s0 [.opened projects .spice defaults qs]) projects (some (.spice, none)) ([], "x.asy".toList) =
        some ("q".toList, .path ["x.asy".toList]) ∧
     findLibrary (run s0 [.opened projects .spice defaults lt, .opened projects .spice defaults qs]) projects (some (.spice, none)) ([], "x.asy".toList) = none) := by
  refine ⟨by decide +kernel, by decide +kernel, by decide +kernel, by decide +kernel⟩

/-- C88 is not vacuous. -/
theorem C88_sample :
    attr (setCustom (initial ["l".toList] []) { projects with isDir := fun p => p = "/h/lib".toList ∨ p = "c".toList, expanduser := fun p => "/h".toList ++ p.drop 1 }
      .asc ["~/lib".toList, "missing".toList, "c".toList]).custom .asc = ["/h/lib".toList, "c".toList] ∧
    detect [.text "* netlist\n".toList, .comp "R1 a b 1".toList, .text "* made by ngspice 42\n".toList] = some .ngspice := by
  refine ⟨by decide +kernel, by decide +kernel⟩

end Props.LibPath
