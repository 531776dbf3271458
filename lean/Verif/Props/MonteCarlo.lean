import Verif.Spec.MonteCarlo
import Mathlib.Tactic.Ring
import Mathlib.Tactic.Linarith
import Mathlib.Tactic.FieldSimp
import Mathlib.Data.List.Nodup
import Mathlib.Data.List.Forall2
import Mathlib.Tactic.Positivity
/-! C70, C71: Monte-Carlo analyses. -/
namespace Props.MonteCarlo
open Model.MonteCarlo Spec.MonteCarlo
open Model.Analysis (Name Kind DevType allowed runName)
open Spec.SpiceExpr (Eval Call definition bind)

/-! ### The functions -/

theorem eval_var {env : Str → Option ℚ} {x : Str} {v : ℚ} : Eval env (.var x) v ↔ env x = some v :=
  ⟨fun h => by cases h with | var h => exact h, .var⟩
theorem eval_num {env : Str → Option ℚ} {q v : ℚ} : Eval env (.num q) v ↔ v = q :=
  ⟨fun h => by cases h with | num _ => rfl, fun h => by rw [h]; exact .num q⟩
theorem eval_add {env : Str → Option ℚ} {a b : Spec.SpiceExpr.Expr} {v : ℚ} : Eval env (.add a b) v ↔ ∃ x y, Eval env a x ∧ Eval env b y ∧ v = x + y :=
  ⟨fun h => by cases h with | add ha hb => exact ⟨_, _, ha, hb, rfl⟩, fun ⟨_, _, ha, hb, e⟩ => e ▸ .add ha hb⟩
theorem eval_sub {env : Str → Option ℚ} {a b : Spec.SpiceExpr.Expr} {v : ℚ} : Eval env (.sub a b) v ↔ ∃ x y, Eval env a x ∧ Eval env b y ∧ v = x - y :=
  ⟨fun h => by cases h with | sub ha hb => exact ⟨_, _, ha, hb, rfl⟩, fun ⟨_, _, ha, hb, e⟩ => e ▸ .sub ha hb⟩
theorem eval_mul {env : Str → Option ℚ} {a b : Spec.SpiceExpr.Expr} {v : ℚ} : Eval env (.mul a b) v ↔ ∃ x y, Eval env a x ∧ Eval env b y ∧ v = x * y :=
  ⟨fun h => by cases h with | mul ha hb => exact ⟨_, _, ha, hb, rfl⟩, fun ⟨_, _, ha, hb, e⟩ => e ▸ .mul ha hb⟩
theorem eval_div {env : Str → Option ℚ} {a b : Spec.SpiceExpr.Expr} {v : ℚ} : Eval env (.div a b) v ↔ ∃ x y, Eval env a x ∧ Eval env b y ∧ y ≠ 0 ∧ v = x / y :=
  ⟨fun h => by cases h with | div ha hb h => exact ⟨_, _, ha, hb, h, rfl⟩, fun ⟨_, _, ha, hb, h, e⟩ => e ▸ .div ha hb h⟩
theorem eval_lt {env : Str → Option ℚ} {a b : Spec.SpiceExpr.Expr} {v : ℚ} : Eval env (.lt a b) v ↔ ∃ x y, Eval env a x ∧ Eval env b y ∧ v = if x < y then 1 else 0 :=
  ⟨fun h => by cases h with | lt ha hb => exact ⟨_, _, ha, hb, rfl⟩, fun ⟨_, _, ha, hb, e⟩ => e ▸ .lt ha hb⟩
theorem eval_ite {env : Str → Option ℚ} {c a b : Spec.SpiceExpr.Expr} {v : ℚ} :
    Eval env (.ite c a b) v ↔ ∃ z, Eval env c z ∧ (z ≠ 0 ∧ Eval env a v ∨ z = 0 ∧ Eval env b v) := by
  constructor
  · intro h
    cases h with
    | yes hc hz ha => exact ⟨_, hc, Or.inl ⟨hz, ha⟩⟩
    | no hc hb => exact ⟨_, hc, Or.inr ⟨rfl, hb⟩⟩
  · rintro ⟨z, hc, ⟨hz, ha⟩ | ⟨rfl, hb⟩⟩
    · exact .yes hc hz ha
    · exact .no hc hb
theorem eval_mc {env : Str → Option ℚ} {a b : Spec.SpiceExpr.Expr} {v : ℚ} :
    Eval env (.mc a b) v ↔ ∃ x y t, Eval env a x ∧ Eval env b y ∧ -1 ≤ t ∧ t ≤ 1 ∧ v = x * (1 + y * t) :=
  ⟨fun h => by cases h with | mc ha hb t h1 h2 => exact ⟨_, _, _, ha, hb, h1, h2, rfl⟩, fun ⟨_, _, _, ha, hb, h1, h2, e⟩ => e ▸ .mc ha hb _ h1 h2⟩
theorem eval_flat {env : Str → Option ℚ} {a : Spec.SpiceExpr.Expr} {v : ℚ} :
    Eval env (.flat a) v ↔ ∃ x t, Eval env a x ∧ -1 ≤ t ∧ t ≤ 1 ∧ v = x * t :=
  ⟨fun h => by cases h with | flat ha t h1 h2 => exact ⟨_, _, ha, h1, h2, rfl⟩, fun ⟨_, _, ha, h1, h2, e⟩ => e ▸ .flat ha _ h1 h2⟩
theorem eval_gauss {env : Str → Option ℚ} {a : Spec.SpiceExpr.Expr} {v : ℚ} :
    Eval env (.gauss a) v ↔ ∃ x g, Eval env a x ∧ v = x * g :=
  ⟨fun h => by cases h with | gauss ha g => exact ⟨_, _, ha, rfl⟩, fun ⟨_, _, ha, e⟩ => e ▸ .gauss ha _⟩
theorem eval_random {env : Str → Option ℚ} {v : ℚ} : Eval env .random v ↔ 0 ≤ v ∧ v ≤ 1 :=
  ⟨fun h => by cases h with | random t h1 h2 => exact ⟨h1, h2⟩, fun ⟨h1, h2⟩ => .random _ h1 h2⟩

/-- Nominal at negative runs, the other expression afterwards. -/
theorem eval_run {env : Str → Option ℚ} {b : Spec.SpiceExpr.Expr} {nom run v : ℚ} (h1 : env "run".toList = some run) (h2 : env "nom".toList = some nom) :
    Eval env (.ite (.lt (.var "run".toList) (.num 0)) (.var "nom".toList) b) v ↔ (run < 0 ∧ v = nom) ∨ (0 ≤ run ∧ Eval env b v) := by
  rw [eval_ite]
  constructor
  · rintro ⟨z, hz, hc⟩
    rw [eval_lt] at hz
    obtain ⟨x, y, hx, hy, rfl⟩ := hz
    rw [eval_var, h1] at hx
    rw [eval_num] at hy
    obtain rfl := Option.some.inj hx
    subst hy
    rcases hc with ⟨hn, ha⟩ | ⟨hn, hb⟩
    · refine Or.inl ⟨?_, ?_⟩
      · by_contra hlt
        exact hn (if_neg hlt)
      · rw [eval_var, h2] at ha
        exact (Option.some.inj ha).symm
    · refine Or.inr ⟨?_, hb⟩
      by_contra hlt
      rw [if_pos (not_le.mp hlt)] at hn
      exact one_ne_zero hn
  · rintro (⟨hr, rfl⟩ | ⟨hr, hb⟩)
    · exact ⟨1, eval_lt.mpr ⟨run, 0, eval_var.mpr h1, eval_num.mpr rfl, (if_pos hr).symm⟩, Or.inl ⟨one_ne_zero, eval_var.mpr h2⟩⟩
    · exact ⟨0, eval_lt.mpr ⟨run, 0, eval_var.mpr h1, eval_num.mpr rfl, (if_neg (not_lt.mpr hr)).symm⟩, Or.inr ⟨rfl, hb⟩⟩

def xs2 : List Str := ["nom".toList, "tol".toList]
def xs3 : List Str := ["nom".toList, "mean".toList, "df2".toList]
def xs3' : List Str := ["nom".toList, "mean".toList, "df6".toList]

open Spec.SpiceExpr.Expr in
def utolBody : Simulator → Spec.SpiceExpr.Expr
  | .ltspice => .ite (.lt (.var "run".toList) (.num 0)) (.var "nom".toList) (.mc (.var "nom".toList) (.var "tol".toList))
  | .qspice => .ite (.lt (.var "run".toList) (.num 0)) (.var "nom".toList)
      (.mul (.var "nom".toList) (.add (.num 1) (.mul (.var "tol".toList) (.sub (.mul (.num 2) .random) (.num 1)))))
def ntolBody : Spec.SpiceExpr.Expr :=
  .ite (.lt (.var "run".toList) (.num 0)) (.var "nom".toList) (.mul (.var "nom".toList) (.add (.num 1) (.gauss (.div (.var "tol".toList) (.num 3)))))
def urngBody : Spec.SpiceExpr.Expr :=
  .ite (.lt (.var "run".toList) (.num 0)) (.var "nom".toList) (.add (.var "mean".toList) (.flat (.var "df2".toList)))
def nrngBody : Spec.SpiceExpr.Expr :=
  .ite (.lt (.var "run".toList) (.num 0)) (.var "nom".toList) (.mul (.var "mean".toList) (.add (.num 1) (.gauss (.var "df6".toList))))

theorem def_utol (s : Simulator) : definition (funcLine s 0) = some ("utol".toList, xs2, utolBody s) := by cases s <;> rfl
theorem def_ntol (s : Simulator) : definition (funcLine s 1) = some ("ntol".toList, xs2, ntolBody) := by cases s <;> rfl
theorem def_urng : definition (funcLine .ltspice 2) = some ("urng".toList, xs3, urngBody) := by rfl
theorem def_urng_q : definition (funcLine .qspice 2) = none := by rfl
theorem def_nrng (s : Simulator) : definition (funcLine s 3) = some ("nrng".toList, xs3', nrngBody) := by cases s <;> rfl

theorem utol_eval (s : Simulator) (q tol run v : ℚ) : Eval (bind xs2 [q, tol] run) (utolBody s) v ↔
    (run < 0 ∧ v = q) ∨ (0 ≤ run ∧ ∃ t : ℚ, -1 ≤ t ∧ t ≤ 1 ∧ v = q + q * tol * t) := by
  have hn : bind xs2 [q, tol] run "nom".toList = some q := rfl
  have ht : bind xs2 [q, tol] run "tol".toList = some tol := rfl
  have hr : bind xs2 [q, tol] run "run".toList = some run := rfl
  cases s with
  | ltspice =>
    rw [utolBody, eval_run hr hn, eval_mc]
    refine or_congr Iff.rfl (and_congr Iff.rfl ⟨?_, ?_⟩)
    · rintro ⟨x, y, t, hx, hy, h1, h2, rfl⟩
      rw [eval_var, hn] at hx
      rw [eval_var, ht] at hy
      obtain rfl := Option.some.inj hx
      obtain rfl := Option.some.inj hy
      exact ⟨t, h1, h2, by ring⟩
    · rintro ⟨t, h1, h2, rfl⟩
      exact ⟨q, tol, t, eval_var.mpr hn, eval_var.mpr ht, h1, h2, by ring⟩
  | qspice =>
    rw [utolBody, eval_run hr hn]
    refine or_congr Iff.rfl (and_congr Iff.rfl ⟨?_, ?_⟩)
    · intro h
      simp only [eval_mul, eval_add, eval_sub, eval_var, eval_num, eval_random, hn, ht] at h
      obtain ⟨x, y, hx, ⟨one, z, h1, ⟨tl, w, h2, ⟨p, o, ⟨two, u, h3, ⟨hu0, hu1⟩, hp⟩, ho, hw⟩, hz⟩, hy⟩, hv⟩ := h
      obtain rfl := Option.some.inj hx
      obtain rfl := Option.some.inj h2
      subst h1; subst h3; subst ho; subst hp; subst hw; subst hz; subst hy; subst hv
      exact ⟨2 * u - 1, by linarith, by linarith, by ring⟩
    · rintro ⟨t, h1, h2, rfl⟩
      simp only [eval_mul, eval_add, eval_sub, eval_var, eval_num, eval_random, hn, ht]
      exact ⟨q, 1 + tol * t, rfl, ⟨1, tol * t, rfl, ⟨tol, t, rfl, ⟨t + 1, 1, ⟨2, (t + 1) / 2, rfl, ⟨by linarith, by linarith⟩, by ring⟩, rfl, by ring⟩, rfl⟩, rfl⟩, by ring⟩

theorem ntol_eval (q tol run v : ℚ) : Eval (bind xs2 [q, tol] run) ntolBody v ↔
    (run < 0 ∧ v = q) ∨ (0 ≤ run ∧ ∃ g : ℚ, v = q + q * tol / 3 * g) := by
  have hn : bind xs2 [q, tol] run "nom".toList = some q := rfl
  have ht : bind xs2 [q, tol] run "tol".toList = some tol := rfl
  have hr : bind xs2 [q, tol] run "run".toList = some run := rfl
  rw [ntolBody, eval_run hr hn]
  refine or_congr Iff.rfl (and_congr Iff.rfl ⟨?_, ?_⟩)
  · intro h
    simp only [eval_mul, eval_add, eval_gauss, eval_div, eval_var, eval_num, hn, ht] at h
    obtain ⟨x, y, hx, ⟨o, z, ho, ⟨w, g, ⟨tl, three, h2, h3, -, hw⟩, hz⟩, hy⟩, hv⟩ := h
    obtain rfl := Option.some.inj hx
    obtain rfl := Option.some.inj h2
    subst ho; subst h3; subst hw; subst hz; subst hy; subst hv
    exact ⟨g, by ring⟩
  · rintro ⟨g, rfl⟩
    simp only [eval_mul, eval_add, eval_gauss, eval_div, eval_var, eval_num, hn, ht]
    exact ⟨q, 1 + tol / 3 * g, rfl, ⟨1, _, rfl, ⟨tol / 3, g, ⟨tol, 3, rfl, rfl, by norm_num, rfl⟩, rfl⟩, rfl⟩, by ring⟩

theorem urng_eval (q m h run v : ℚ) : Eval (bind xs3 [q, m, h] run) urngBody v ↔
    (run < 0 ∧ v = q) ∨ (0 ≤ run ∧ ∃ t : ℚ, -1 ≤ t ∧ t ≤ 1 ∧ v = m + h * t) := by
  have hn : bind xs3 [q, m, h] run "nom".toList = some q := rfl
  have ht : bind xs3 [q, m, h] run "mean".toList = some m := rfl
  have hd : bind xs3 [q, m, h] run "df2".toList = some h := rfl
  have hr : bind xs3 [q, m, h] run "run".toList = some run := rfl
  rw [urngBody, eval_run hr hn]
  refine or_congr Iff.rfl (and_congr Iff.rfl ⟨?_, ?_⟩)
  · intro h
    simp only [eval_add, eval_flat, eval_var, ht, hd] at h
    obtain ⟨x, y, hx, ⟨z, t, hz, h1, h2, hy⟩, hv⟩ := h
    obtain rfl := Option.some.inj hx
    obtain rfl := Option.some.inj hz
    subst hy; subst hv
    exact ⟨t, h1, h2, rfl⟩
  · rintro ⟨t, h1, h2, rfl⟩
    simp only [eval_add, eval_flat, eval_var, ht, hd]
    exact ⟨m, h * t, rfl, ⟨h, t, rfl, h1, h2, rfl⟩, rfl⟩

theorem nrng_eval (q m h run v : ℚ) : Eval (bind xs3' [q, m, h] run) nrngBody v ↔
    (run < 0 ∧ v = q) ∨ (0 ≤ run ∧ ∃ g : ℚ, v = m * (1 + h * g)) := by
  have hn : bind xs3' [q, m, h] run "nom".toList = some q := rfl
  have ht : bind xs3' [q, m, h] run "mean".toList = some m := rfl
  have hd : bind xs3' [q, m, h] run "df6".toList = some h := rfl
  have hr : bind xs3' [q, m, h] run "run".toList = some run := rfl
  rw [nrngBody, eval_run hr hn]
  refine or_congr Iff.rfl (and_congr Iff.rfl ⟨?_, ?_⟩)
  · intro h
    simp only [eval_mul, eval_add, eval_gauss, eval_num, eval_var, ht, hd] at h
    obtain ⟨x, y, hx, ⟨o, z, ho, ⟨w, g, hw, hz⟩, hy⟩, hv⟩ := h
    obtain rfl := Option.some.inj hx
    obtain rfl := Option.some.inj hw
    subst ho; subst hz; subst hy; subst hv
    exact ⟨g, rfl⟩
  · rintro ⟨g, rfl⟩
    simp only [eval_mul, eval_add, eval_gauss, eval_num, eval_var, ht, hd]
    exact ⟨m, 1 + h * g, rfl, ⟨1, _, rfl, ⟨h, g, rfl, rfl⟩, rfl⟩, rfl⟩

/-! ### Looking a function up in the lines -/

theorem lookup_funcs (s : Simulator) (u : Used) :
    ((funcLines s u).filterMap definition).lookup "utol".toList = (if u.utol then some (xs2, utolBody s) else none) ∧
    ((funcLines s u).filterMap definition).lookup "ntol".toList = (if u.ntol then some (xs2, ntolBody) else none) ∧
    ((funcLines .ltspice u).filterMap definition).lookup "urng".toList = (if u.urng then some (xs3, urngBody) else none) ∧
    ((funcLines s u).filterMap definition).lookup "nrng".toList = (if u.nrng then some (xs3', nrngBody) else none) := by
  obtain ⟨a, b, c, d⟩ := u
  refine ⟨?_, ?_, ?_, ?_⟩ <;> cases s <;> cases a <;> cases b <;> cases c <;> cases d <;> rfl

theorem lookup_none_of {l : List Str} {f : Str} (h : ∀ line ∈ l, ∀ xs e, definition line ≠ some (f, xs, e)) :
    (l.filterMap definition).lookup f = none := by
  rw [List.lookup_eq_none_iff]
  intro p hp
  obtain ⟨line, hl, e⟩ := List.mem_filterMap.mp hp
  rw [bne_iff_ne]
  rintro rfl
  exact h line hl p.2.1 p.2.2 e

theorem lookup_mid {pre mid post : List Str} {f : Str} (h : ∀ line ∈ pre, ∀ xs e, definition line ≠ some (f, xs, e)) {r : List Str × Spec.SpiceExpr.Expr}
    (hm : (mid.filterMap definition).lookup f = some r) : ((pre ++ mid ++ post).filterMap definition).lookup f = some r := by
  rw [List.filterMap_append, List.filterMap_append, List.lookup_append, List.lookup_append, lookup_none_of h, hm]
  rfl

theorem call_iff {lines : List Str} {f : Str} {xs : List Str} {e : Spec.SpiceExpr.Expr} (h : (lines.filterMap definition).lookup f = some (xs, e))
    {vs : List ℚ} (hl : xs.length = vs.length) (run v : ℚ) : Call lines run f vs v ↔ Eval (bind xs vs run) e v := by
  constructor
  · rintro ⟨xs', e', h', -, he⟩
    rw [h] at h'
    obtain ⟨rfl, rfl⟩ := Prod.mk.inj (Option.some.inj h')
    exact he
  · intro he
    exact ⟨xs, e, h, hl, he⟩

/-! ### Playing the recorded commands -/

/-- Replaying commands that set no parameter of `S` on two netlists that differ in these only. -/
theorem fold_user (S : Name → Prop) : ∀ (cmds : List Cmd) (e e' f : Ed), (∀ p v, Cmd.setParameter p v ∈ cmds → ¬ S p) →
    (∀ r, e.net .component r = e'.net .component r) → (∀ p, ¬ S p → e.net .parameter p = e'.net .parameter p) →
    cmds.foldlM applyCmd e = some f →
    ∃ f', cmds.foldlM applyCmd e' = some f' ∧ (∀ r, f.net .component r = f'.net .component r) ∧
      (∀ p, ¬ S p → f.net .parameter p = f'.net .parameter p) ∧ (∀ p, S p → f.net .parameter p = e.net .parameter p) ∧
      f.instr = e.instr ++ instrs cmds := by
  intro cmds
  induction cmds with
  | nil =>
    intro e e' f _ hc hp h
    obtain rfl := Option.some.inj h
    exact ⟨e', rfl, hc, hp, fun _ _ => rfl, (List.append_nil _).symm⟩
  | cons c cmds ih =>
    intro e e' f hs hc hp h
    rw [List.foldlM_cons] at h
    rw [Option.bind_eq_bind, Option.bind_eq_some_iff] at h
    obtain ⟨e1, h1, h2⟩ := h
    have hs' : ∀ p v, Cmd.setParameter p v ∈ cmds → ¬ S p := fun p v m => hs p v (List.mem_cons_of_mem _ m)
    cases c with
    | setComponent ref v =>
      rw [applyCmd, Net.set] at h1
      by_cases hx : (e.net .component ref).isSome
      · rw [if_pos hx] at h1
        obtain rfl := Option.some.inj h1
        obtain ⟨f', g1, g2, g3, g4, g5⟩ := ih _ { e' with net := e'.net.put .component ref v } f hs'
          (fun r => by
            by_cases hr : r = ref
            · simp only [Net.put, hr, and_self, if_true]
            · simp only [Net.put, hr, and_false, if_false]
              exact hc r)
          (fun p hpS => by simpa only [Net.put, reduceCtorEq, false_and, if_false] using hp p hpS) h2
        refine ⟨f', ?_, g2, g3, fun p hpS => (g4 p hpS).trans ?_, g5⟩
        · rw [List.foldlM_cons, applyCmd, Net.set, if_pos (by rw [← hc]; exact hx)]
          exact g1
        · simp only [Net.put, reduceCtorEq, false_and, if_false]
      · rw [if_neg hx] at h1
        exact absurd h1 (by simp)
    | setParameter ref v =>
      rw [applyCmd, Net.set] at h1
      obtain rfl := Option.some.inj h1
      have hS : ¬ S ref := hs ref v List.mem_cons_self
      obtain ⟨f', g1, g2, g3, g4, g5⟩ := ih _ { e' with net := e'.net.put .parameter ref v } f hs'
        (fun r => by simpa only [Net.put, reduceCtorEq, false_and, if_false] using hc r)
        (fun p hpS => by
          by_cases hr : p = ref
          · simp only [Net.put, hr, and_self, if_true]
          · simp only [Net.put, hr, and_false, if_false]
            exact hp p hpS) h2
      refine ⟨f', ?_, g2, g3, fun p hpS => (g4 p hpS).trans ?_, g5⟩
      · rw [List.foldlM_cons, applyCmd, Net.set]
        exact g1
      · have : p ≠ ref := fun e : p = ref => hS (e ▸ hpS)
        simp only [Net.put, this, and_false, if_false]
    | instruction s =>
      obtain rfl := Option.some.inj h1
      obtain ⟨f', g1, g2, g3, g4, g5⟩ := ih { e with instr := e.instr ++ [s] } { e' with instr := e'.instr ++ [s] } f hs' hc hp h2
      refine ⟨f', ?_, g2, g3, g4, ?_⟩
      · rw [List.foldlM_cons, applyCmd]
        exact g1
      · rw [g5]
        exact List.append_assoc _ _ _

def setAll (L : List (Name × Val)) : List Cmd := L.map (fun x : Name × Val => Cmd.setComponent x.1 x.2)

/-- Setting components, each once. -/
theorem fold_sets : ∀ (L : List (Name × Val)) (e f : Ed), (L.map Prod.fst).Nodup → (setAll L).foldlM applyCmd e = some f →
    (∀ p, f.net .parameter p = e.net .parameter p) ∧ f.instr = e.instr ∧ (∀ r v, (r, v) ∈ L → f.net .component r = some v) ∧
    (∀ r, r ∉ L.map Prod.fst → f.net .component r = e.net .component r) := by
  intro L
  induction L with
  | nil =>
    intro e f _ h
    obtain rfl := Option.some.inj h
    exact ⟨fun _ => rfl, rfl, fun _ _ m => absurd m List.not_mem_nil, fun _ _ => rfl⟩
  | cons x L ih =>
    intro e f hn h
    obtain ⟨ref, v⟩ := x
    rw [List.map_cons, List.nodup_cons] at hn
    rw [setAll, List.map_cons, List.foldlM_cons, Option.bind_eq_bind, Option.bind_eq_some_iff] at h
    obtain ⟨e1, h1, h2⟩ := h
    rw [applyCmd, Net.set] at h1
    by_cases hx : (e.net .component ref).isSome
    · rw [if_pos hx] at h1
      obtain rfl := Option.some.inj h1
      obtain ⟨g1, g2, g3, g4⟩ := ih _ f hn.2 h2
      refine ⟨fun p => (g1 p).trans (by simp only [Net.put, reduceCtorEq, false_and, if_false]), g2, ?_, ?_⟩
      · intro r w m
        rcases List.mem_cons.mp m with e0 | m
        · obtain ⟨rfl, rfl⟩ := Prod.mk.inj e0
          rw [g4 r hn.1]
          simp only [Net.put, and_self, if_true]
        · exact g3 r w m
      · intro r hr
        rw [List.map_cons, List.mem_cons, not_or] at hr
        rw [g4 r hr.2]
        simp only [Net.put, hr.1, and_false, if_false]
    · rw [if_neg hx] at h1
      exact absurd h1 (by simp)

/-! ### Preparing -/

def noneUsed : Used := ⟨false, false, false, false⟩
def cf (v : Val) (d : Dev) : Val := (compFormula v d noneUsed).1

theorem cf_eq (v : Val) (d : Dev) (u : Used) : (compFormula v d u).1 = cf v d := by
  unfold cf compFormula
  cases d.typ <;> cases d.dist <;> rfl

/-- The functions that the formula of a component calls are marked. -/
def Marked (d : Dev) (u : Used) : Prop :=
  (d.typ = .tolerance → d.dist = .uniform → u.utol = true) ∧ (d.typ = .tolerance → d.dist = .normal → u.ntol = true) ∧
  (d.typ = .minmax → d.dist = .uniform → u.urng = true)

def Le (u w : Used) : Prop := (u.utol = true → w.utol = true) ∧ (u.ntol = true → w.ntol = true) ∧ (u.urng = true → w.urng = true) ∧ (u.nrng = true → w.nrng = true)

theorem Le.refl (u : Used) : Le u u := ⟨id, id, id, id⟩
theorem Le.trans {u v w : Used} (h : Le u v) (k : Le v w) : Le u w :=
  ⟨k.1 ∘ h.1, k.2.1 ∘ h.2.1, k.2.2.1 ∘ h.2.2.1, k.2.2.2 ∘ h.2.2.2⟩
theorem Marked.mono {d : Dev} {u w : Used} (h : Marked d u) (k : Le u w) : Marked d w :=
  ⟨fun a b => k.1 (h.1 a b), fun a b => k.2.1 (h.2.1 a b), fun a b => k.2.2.1 (h.2.2 a b)⟩

theorem cf_marks (v : Val) (d : Dev) (u : Used) : Le u (compFormula v d u).2 ∧ Marked d (compFormula v d u).2 := by
  unfold compFormula Le Marked
  cases d.typ <;> cases d.dist <;> simp

theorem prepComps_spec (a : St) : ∀ (l : List Name) (acc : List Cmd × Used) (cmds : List Cmd) (u : Used), l.Nodup → prepComps a l acc = some (cmds, u) →
    ∃ L : List (Name × Val), cmds = acc.1 ++ setAll L ∧ (L.map Prod.fst).Nodup ∧ (∀ r ∈ L.map Prod.fst, r ∈ l) ∧ Le acc.2 u ∧
      (∀ r ∈ l, ∃ v d, a.valueDev r = some (v, d) ∧ Marked d u ∧ (cf v d ≠ v → (r, cf v d) ∈ L) ∧ (cf v d = v → r ∉ L.map Prod.fst)) := by
  intro l
  induction l with
  | nil =>
    intro acc cmds u _ h
    obtain rfl := Option.some.inj h
    exact ⟨[], (List.append_nil _).symm, List.nodup_nil, by simp, Le.refl _, by simp⟩
  | cons ref l ih =>
    intro acc cmds u hn h
    rw [List.nodup_cons] at hn
    rw [prepComps] at h
    cases hv : a.valueDev ref with
    | none => rw [hv] at h; exact absurd h (by simp)
    | some x =>
      obtain ⟨v, d⟩ := x
      rw [hv] at h
      have hm := cf_marks v d acc.2
      by_cases hc : cf v d = v
      · simp only [cf_eq, hc, if_true] at h
        obtain ⟨L, e, n, s, le, k⟩ := ih _ _ _ hn.2 h
        have hr : ref ∉ L.map Prod.fst := fun m => hn.1 (s _ m)
        refine ⟨L, e, n, fun r m => List.mem_cons_of_mem _ (s r m), hm.1.trans le, ?_⟩
        intro r m
        rcases List.mem_cons.mp m with rfl | m
        · exact ⟨v, d, hv, hm.2.mono le, fun x => absurd hc x, fun _ => hr⟩
        · exact k r m
      · simp only [cf_eq, hc, if_false] at h
        obtain ⟨L, e, n, s, le, k⟩ := ih _ _ _ hn.2 h
        have hr : ref ∉ L.map Prod.fst := fun m => hn.1 (s _ m)
        refine ⟨(ref, cf v d) :: L, ?_, List.nodup_cons.mpr ⟨hr, n⟩, ?_, hm.1.trans le, ?_⟩
        · rw [e]
          exact List.append_assoc _ _ _
        · intro r m
          rcases List.mem_cons.mp m with rfl | m
          · exact List.mem_cons_self
          · exact List.mem_cons_of_mem _ (s r m)
        · intro r m
          rcases List.mem_cons.mp m with rfl | m
          · exact ⟨v, d, hv, hm.2.mono le, fun _ => List.mem_cons_self, fun x => absurd x hc⟩
          · obtain ⟨v', d', h1, h2, h3, h4⟩ := k r m
            refine ⟨v', d', h1, h2, fun x => List.mem_cons_of_mem _ (h3 x), fun x m' => ?_⟩
            rcases List.mem_cons.mp m' with e0 | m'
            · have e1 : r = ref := e0
              exact hn.1 (e1 ▸ m)
            · exact h4 x m'

/-- Formula of a parameter. -/
def pf (v : Val) (d : Dev) : Val := match d.typ, d.dist with
  | .tolerance, .uniform => .utol v d.tolText
  | .tolerance, .normal => .ntol v d.tolText
  | .minmax, .uniform => .urng v ((d.hi + d.lo) / 2) ((d.hi - d.lo) / 2)
  | .minmax, .normal => .nrng v ((d.hi + d.lo) / 2) ((d.hi - d.lo) / 6)
  | _, _ => v

theorem pf_eq {v : Val} {d : Dev} {u : Used} {o : Option Val} {w : Used} (h : paramFormula v d u = some (o, w)) :
    (o = some (pf v d) ∨ o = none ∧ pf v d = v) ∧ Le u w ∧ Marked d w ∧ (d.typ = .minmax → d.dist = .normal → w.nrng = true) := by
  unfold paramFormula at h
  unfold pf Le Marked
  cases ht : d.typ <;> cases hd : d.dist <;> rw [ht, hd] at h <;> simp only [Option.some.injEq, Prod.mk.injEq] at h <;>
    first
    | (obtain ⟨rfl, rfl⟩ := h; simp)
    | (cases v <;> simp only [Option.some.injEq, Prod.mk.injEq, reduceCtorEq] at h
       obtain ⟨rfl, rfl⟩ := h; simp)

theorem prepParams_spec : ∀ (l : List (Name × Dev)) (acc : Net × Used) (n : Net) (u : Used), (l.map Prod.fst).Nodup → prepParams l acc = some (n, u) →
    Le acc.2 u ∧ (∀ r, n .component r = acc.1 .component r) ∧ (∀ p, p ∉ l.map Prod.fst → n .parameter p = acc.1 .parameter p) ∧
    (∀ p d, (p, d) ∈ l → ∃ v, acc.1 .parameter p = some v ∧ n .parameter p = some (pf v d) ∧ Marked d u ∧
      (d.typ = .minmax → d.dist = .normal → u.nrng = true)) := by
  intro l
  induction l with
  | nil =>
    intro acc n u _ h
    obtain rfl := Option.some.inj h
    exact ⟨Le.refl _, fun _ => rfl, fun _ _ => rfl, by simp⟩
  | cons x l ih =>
    intro acc n u hn h
    obtain ⟨p, d⟩ := x
    rw [List.map_cons, List.nodup_cons] at hn
    rw [prepParams] at h
    cases hv : acc.1 .parameter p with
    | none => rw [hv] at h; exact absurd h (by simp)
    | some v =>
      rw [hv] at h
      simp only at h
      cases hf : paramFormula v d acc.2 with
      | none => rw [hf] at h; exact absurd h (by simp)
      | some y =>
        obtain ⟨o, w⟩ := y
        obtain ⟨ho, le, mk, nr⟩ := pf_eq hf
        rw [hf] at h
        have key : ∃ net' : Net, prepParams l (net', w) = some (n, u) ∧ (∀ r, net' .component r = acc.1 .component r) ∧
            (∀ q, q ≠ p → net' .parameter q = acc.1 .parameter q) ∧ net' .parameter p = some (pf v d) := by
          rcases ho with rfl | ⟨rfl, e⟩
          · refine ⟨acc.1.put .parameter p (pf v d), h, ?_, ?_, ?_⟩
            · intro r; simp only [Net.put, reduceCtorEq, false_and, if_false]
            · intro q hq; simp only [Net.put, hq, and_false, if_false]
            · simp only [Net.put, and_self, if_true]
          · exact ⟨acc.1, h, fun _ => rfl, fun _ _ => rfl, by rw [e]; exact hv⟩
        obtain ⟨net', h', kc, kp, k0⟩ := key
        obtain ⟨i1, i2, i3, i4⟩ := ih _ _ _ hn.2 h'
        refine ⟨le.trans i1, fun r => (i2 r).trans (kc r), ?_, ?_⟩
        · intro q hq
          rw [List.map_cons, List.mem_cons, not_or] at hq
          exact (i3 q hq.2).trans (kp q hq.1)
        · intro q d' m
          rcases List.mem_cons.mp m with e0 | m
          · obtain ⟨rfl, rfl⟩ := Prod.mk.inj e0
            exact ⟨v, hv, (i3 _ hn.1).trans k0, mk.mono i1, fun a b => i1.2.2.2 (nr a b)⟩
          · obtain ⟨v', j1, j2, j3, j4⟩ := i4 q d' m
            have hq : q ≠ p := fun e0 : q = p => hn.1 (List.mem_map.mpr ⟨(q, d'), m, e0⟩)
            exact ⟨v', by rw [← kp q hq]; exact j1, j2, j3, j4⟩

/-! ### Launching -/

theorem func_char (s : Simulator) (i : Fin 4) : (funcLine s i)[1]? = some 'f' := by
  revert i
  cases s <;> decide +kernel

theorem mem_funcs {s : Simulator} {u : Used} {line : Str} (m : line ∈ funcLines s u) : ∃ i, line = funcLine s i := by
  have h : ∀ (b : Bool) (i : Fin 4), line ∈ (if b then [funcLine s i] else []) → ∃ i, line = funcLine s i := by
    intro b i m
    cases b with
    | true => exact ⟨i, List.mem_singleton.mp m⟩
    | false => exact absurd m List.not_mem_nil
  rw [funcLines] at m
  rcases List.mem_append.mp m with m | m
  · rcases List.mem_append.mp m with m | m
    · rcases List.mem_append.mp m with m | m
      · exact h _ _ m
      · exact h _ _ m
    · exact h _ _ m
  · exact h _ _ m

theorem step_char (i j : ℤ) : (stepLine i j)[1]? = some 's' := rfl

theorem step_func (s : Simulator) (u : Used) (i j : ℤ) : stepLine i j ∉ funcLines s u := by
  intro m
  obtain ⟨k, e⟩ := mem_funcs m
  have h := func_char s k
  rw [← e, step_char] at h
  exact absurd h (by decide)

theorem launches : ∀ (l : List (ℤ × ℤ)) (a : St), (∀ i j : ℤ, stepLine i j ∉ a.ed.instr) →
    l.foldl launchBatch a = { a with launched := a.launched ++ l.map (fun b : ℤ × ℤ => (⟨a.ed.net, a.ed.instr ++ [stepLine b.1 b.2]⟩ : Ed)) } := by
  intro l
  induction l with
  | nil => intro a _; simp
  | cons b l ih =>
    intro a h
    have e : launchBatch a b = { a with launched := a.launched ++ [(⟨a.ed.net, a.ed.instr ++ [stepLine b.1 b.2]⟩ : Ed)] } := by
      rw [launchBatch]
      simp only [List.erase_append_right _ (h b.1 b.2), List.erase_cons_head, List.append_nil]
    have h2 := ih { a with launched := a.launched ++ [(⟨a.ed.net, a.ed.instr ++ [stepLine b.1 b.2]⟩ : Ed)] } h
    rw [List.foldl_cons, e, h2]
    simp only [List.map_cons, List.append_assoc, List.singleton_append]

/-! ### The testbench -/

theorem valueDev_varies {a : St} {r : Name} {v : Val} {d : Dev} (h : a.valueDev r = some (v, d)) (hr : r ∈ a.comps) (ht : d.typ ≠ .none) (hd : d.dist ≠ .other) :
    ∃ q, v = .num q ∧ Varies a a.ed.net .component r q d := by
  unfold St.valueDev at h
  cases hh : r.head? with
  | none => rw [hh] at h; exact absurd h (by simp)
  | some c =>
    rw [hh] at h
    simp only at h
    by_cases hc : c ∈ allowed
    · rw [if_pos hc] at h
      cases hv : a.ed.net .component r with
      | none => rw [hv] at h; exact absurd h (by simp)
      | some w =>
        rw [hv] at h
        have no : ∀ w : Val, some (w, Dev.no) = some (v, d) → False := by
          intro w e
          obtain ⟨-, rfl⟩ := Prod.mk.inj (Option.some.inj e)
          exact ht rfl
        cases w with
        | num q =>
          simp only at h
          cases hl : a.deviceDev.lookup r with
          | some d' =>
            rw [hl] at h
            obtain ⟨rfl, rfl⟩ := Prod.mk.inj (Option.some.inj h)
            exact ⟨q, rfl, hv, ht, hd, hr, ⟨c, hc, hh⟩, Or.inl hl⟩
          | none =>
            rw [hl] at h
            simp only at h
            cases hd2 : a.defaultTol.lookup c with
            | some d' =>
              rw [hd2] at h
              obtain ⟨rfl, rfl⟩ := Prod.mk.inj (Option.some.inj h)
              exact ⟨q, rfl, hv, ht, hd, hr, ⟨c, hc, hh⟩, Or.inr ⟨hl, c, hh, hd2⟩⟩
            | none =>
              rw [hd2] at h
              exact absurd (no _ h) id
        | text _ => exact absurd (no _ h) id
        | utol _ _ => exact absurd (no _ h) id
        | ntol _ _ => exact absurd (no _ h) id
        | urng _ _ _ => exact absurd (no _ h) id
        | nrng _ _ _ => exact absurd (no _ h) id
    · rw [if_neg hc] at h
      exact absurd h (by simp)

theorem varies_valueDev {a : St} {r : Name} {q : ℚ} {d : Dev} (h : Varies a a.ed.net .component r q d) : a.valueDev r = some (.num q, d) ∧ r ∈ a.candidates := by
  obtain ⟨hv, ht, hd, hr, ⟨c, hc, hh⟩, hdev⟩ := h
  constructor
  · unfold St.valueDev
    rw [hh]
    simp only [hc, if_true, hv]
    rcases hdev with hl | ⟨hl, c', hh', hd2⟩
    · rw [hl]
    · rw [hh] at hh'
      obtain rfl := Option.some.inj hh'
      rw [hl]
      simp only [hd2]
  · rw [St.candidates, List.mem_filter, hh]
    exact ⟨hr, by simpa using hc⟩

theorem cf_ne {v : Val} {d : Dev} (h : cf v d ≠ v) : d.typ ≠ .none ∧ d.dist ≠ .other := by
  unfold cf compFormula at h
  cases ht : d.typ <;> cases hd : d.dist <;> rw [ht, hd] at h <;> simp at h ⊢

/-- What a testbench launches. -/
theorem core {s : Simulator} {n : Option ℕ} {rps : ℤ} {a b c : St} (ha : Ready a) (hp : prepare s n a = some b) (hr : runTestbench s rps b = some c) :
    ∃ (net : Net) (u : Used) (user : Ed), a.received.foldlM applyCmd a.ed = some user ∧
      c.launched = (Model.Testbench.batches b.lastRun rps).map
        (fun x : ℤ × ℤ => (⟨net, a.ed.instr ++ funcLines s u ++ instrs a.received ++ [stepLine x.1 x.2]⟩ : Ed)) ∧
      net .parameter runName = some (.num (-1)) ∧
      (∀ r q d, Varies a a.ed.net .component r q d → Marked d u ∧ net .component r = some (cf (.num q) d)) ∧
      (∀ p d, (p, d) ∈ a.paramDev → ∃ v, a.ed.net .parameter p = some v ∧ net .parameter p = some (pf v d) ∧ Marked d u ∧
        (d.typ = .minmax → d.dist = .normal → u.nrng = true)) ∧
      (∀ k r, ¬ Touched a a.ed.net k r → net k r = user.net k r) := by
  unfold prepare at hp
  cases hc : prepComps a a.candidates ([], ⟨false, false, false, false⟩) with
  | none => rw [hc] at hp; exact absurd hp (by simp)
  | some x =>
    obtain ⟨cmds, u0⟩ := x
    rw [hc] at hp
    simp only at hp
    cases hpp : prepParams a.paramDev (a.ed.net, u0) with
    | none => rw [hpp] at hp; exact absurd hp (by simp)
    | some y =>
      obtain ⟨net0, u⟩ := y
      rw [hpp] at hp
      simp only at hp
      generalize hlast : n.getD (if a.lastRun ≠ 0 then a.lastRun else 1000) = last at hp
      obtain rfl := Option.some.inj hp
      clear hp
      have hcn : a.candidates.Nodup := ha.comps.filter _
      obtain ⟨L, e1, n1, s1, le1, k1⟩ := prepComps_spec a _ _ _ _ hcn hc
      obtain ⟨le2, kc, kp, kd⟩ := prepParams_spec _ _ _ _ ha.params hpp
      rw [runTestbench] at hr
      simp only [if_true] at hr
      rw [St.play, ha.fresh] at hr
      simp only [Bool.false_eq_true, if_false] at hr
      generalize hE : (⟨net0.put .parameter runName (.num (-1)), a.ed.instr ++ funcLines s u ++ [stepLine (-1) last]⟩ : Ed) = E0 at hr
      cases hf : (a.received ++ cmds).foldlM applyCmd E0 with
      | none => rw [hf] at hr; exact absurd hr (by simp)
      | some F =>
        rw [hf] at hr
        simp only [Option.map_some] at hr
        rw [List.foldlM_append, Option.bind_eq_bind, Option.bind_eq_some_iff] at hf
        obtain ⟨G, hG, hF⟩ := hf
        rw [e1, List.nil_append] at hF
        obtain ⟨user, w1, w2, w3, w4, w5⟩ := fold_user (fun p => p = runName ∨ p ∈ a.paramDev.map Prod.fst) a.received E0 a.ed G
          (fun p v m h => by
            obtain ⟨h1, h2⟩ := ha.commands p v m
            exact h.elim h1 h2)
          (fun r => by
            rw [← hE]
            simp only [Net.put, reduceCtorEq, false_and, if_false]
            exact kc r)
          (fun p hS => by
            rw [← hE]
            simp only [not_or] at hS
            simp only [Net.put, hS.1, and_false, if_false]
            exact kp p hS.2) hG
        obtain ⟨f1, f2, f3, f4⟩ := fold_sets L G F n1 hF
        have hinstr : F.instr = a.ed.instr ++ funcLines s u ++ [stepLine (-1) last] ++ instrs a.received := by rw [f2, w5, ← hE]
        have hnot : ∀ i j : ℤ, stepLine i j ∉ a.ed.instr ++ funcLines s u := by
          intro i j m
          rcases List.mem_append.mp m with m | m
          · exact ha.no_step i j (List.mem_append_left _ m)
          · exact step_func s u i j m
        have her : F.instr.erase (stepLine (-1) last) = a.ed.instr ++ funcLines s u ++ instrs a.received := by
          rw [hinstr, List.append_assoc, List.erase_append_right _ (hnot _ _), List.singleton_append, List.erase_cons_head]
        have hno : ∀ i j : ℤ, stepLine i j ∉ a.ed.instr ++ funcLines s u ++ instrs a.received := by
          intro i j m
          rcases List.mem_append.mp m with m | m
          · exact hnot i j m
          · exact ha.no_step i j (List.mem_append_right _ m)
        have hL := launches (Model.Testbench.batches last rps)
          { a with ed := ⟨F.net, a.ed.instr ++ funcLines s u ++ instrs a.received⟩, received := a.received ++ cmds, added := true, prepared := true, lastRun := last, launched := [] } hno
        rw [her] at hr
        rw [hL] at hr
        obtain rfl := Option.some.inj hr
        refine ⟨F.net, u, user, w1, rfl, ?_, ?_, ?_, ?_⟩
        · rw [f1, w4 _ (Or.inl rfl), ← hE]
          simp only [Net.put, and_self, if_true]
        · intro r q d hv
          obtain ⟨hvd, hm⟩ := varies_valueDev hv
          obtain ⟨v, d', h1, h2, h3, h4⟩ := k1 r hm
          rw [hvd] at h1
          obtain ⟨rfl, rfl⟩ := Prod.mk.inj (Option.some.inj h1)
          refine ⟨h2.mono le2, f3 r _ (h3 ?_)⟩
          obtain ⟨-, ht, hd, -⟩ := hv
          unfold cf compFormula
          cases ht' : d.typ <;> cases hd' : d.dist <;> simp_all
        · intro p d m
          obtain ⟨v, h1, h2, h3, h4⟩ := kd p d m
          refine ⟨v, h1, ?_, h3, h4⟩
          have hm : p ∈ a.paramDev.map Prod.fst := List.mem_map.mpr ⟨(p, d), m, rfl⟩
          have hne : p ≠ runName := fun e : p = runName => ha.not_run (e ▸ hm)
          rw [f1, w4 p (Or.inr hm), ← hE]
          simp only [Net.put, hne, and_false, if_false]
          exact h2
        · intro k r ht
          cases k with
          | component =>
            rw [← w2 r]
            apply f4
            intro m
            have hm := s1 r m
            obtain ⟨v, d, h1, h2, h3, h4⟩ := k1 r hm
            have hne : cf v d ≠ v := fun e => h4 e m
            obtain ⟨t1, t2⟩ := cf_ne hne
            have hcm : r ∈ a.comps := (List.mem_filter.mp hm).1
            obtain ⟨q, -, hv⟩ := valueDev_varies h1 hcm t1 t2
            exact ht ⟨q, d, hv⟩
          | parameter =>
            rw [f1]
            exact w3 r ht

theorem rstrip_last {c : Char} : ∀ (s : Str), (∀ x, s.getLast? = some x → x ≠ c) → Model.PyStr.rstripChar c s = s := by
  intro s h
  rcases List.eq_nil_or_concat s with rfl | ⟨l, x, rfl⟩
  · rfl
  · rw [List.concat_eq_append] at h ⊢
    have hx := h x (by simp)
    simp [Model.PyStr.rstripChar, hx]

theorem tolArg_written {reads : Str → Option ℚ} {d : Dev} (h : Written reads d) : tolArg d = d.tolText := by
  have h0 : Model.PyStr.rstripChar '0' d.tolText = d.tolText := rstrip_last _ (fun x e => (h.2 x e).1)
  rw [tolArg, h0]
  exact rstrip_last _ (fun x e => (h.2 x e).2)

/-- The values a formula of the testbench can have. -/
theorem possible_formula {s : Simulator} {u : Used} {pre post : List Str} (hf : ∀ line ∈ pre, ∀ f ∈ functions, ∀ xs e, definition line ≠ some (f, xs, e))
    {reads : Str → Option ℚ} {q : ℚ} {d : Dev} (hm : Marked d u) (hs : Supported s d) (hd : d.dist ≠ .other) (hw : d.typ = .tolerance → reads d.tolText = some d.lo) (run v : ℚ) :
    Possible reads (pre ++ funcLines s u ++ post) run (pf (.num q) d) v ↔ (run < 0 ∧ v = q) ∨ (0 ≤ run ∧ Drawn q d v) := by
  obtain ⟨l1, l2, l3, -⟩ := lookup_funcs s u
  have hpre : ∀ f ∈ functions, ∀ line ∈ pre, ∀ xs e, definition line ≠ some (f, xs, e) := fun f m line hl => hf line hl f m
  rcases hs with ht | ⟨ht, hu, rfl⟩
  · have hwt := hw ht
    cases hdd : d.dist with
    | uniform =>
      have he : pf (.num q) d = .utol (.num q) d.tolText := by unfold pf; rw [ht, hdd]
      rw [hm.1 ht hdd, if_pos rfl] at l1
      have hl := lookup_mid (post := post) (hpre "utol".toList (by decide)) l1
      have hc := fun x : ℚ => call_iff hl (vs := [q, x]) rfl run v
      rw [he]
      constructor
      · rintro ⟨x, hx, h⟩
        rw [hwt] at hx
        obtain rfl := Option.some.inj hx
        rw [hc, utol_eval] at h
        simpa only [Drawn, hdd, centre, half, ht] using h
      · intro h
        refine ⟨d.lo, hwt, ?_⟩
        rw [hc, utol_eval]
        simpa only [Drawn, hdd, centre, half, ht] using h
    | normal =>
      have he : pf (.num q) d = .ntol (.num q) d.tolText := by unfold pf; rw [ht, hdd]
      rw [hm.2.1 ht hdd, if_pos rfl] at l2
      have hl := lookup_mid (post := post) (hpre "ntol".toList (by decide)) l2
      have hc := fun x : ℚ => call_iff hl (vs := [q, x]) rfl run v
      rw [he]
      constructor
      · rintro ⟨x, hx, h⟩
        rw [hwt] at hx
        obtain rfl := Option.some.inj hx
        rw [hc, ntol_eval] at h
        simpa only [Drawn, hdd, centre, half, ht] using h
      · intro h
        refine ⟨d.lo, hwt, ?_⟩
        rw [hc, ntol_eval]
        simpa only [Drawn, hdd, centre, half, ht] using h
    | other => exact absurd hdd hd
  · have he : pf (.num q) d = .urng (.num q) ((d.hi + d.lo) / 2) ((d.hi - d.lo) / 2) := by unfold pf; rw [ht, hu]
    rw [hm.2.2 ht hu, if_pos rfl] at l3
    have hl := lookup_mid (post := post) (hpre "urng".toList (by decide)) l3
    have hc := call_iff hl (vs := [q, (d.hi + d.lo) / 2, (d.hi - d.lo) / 2]) rfl run v
    rw [he]
    show Call _ _ _ _ _ ↔ _
    rw [hc, urng_eval]
    simp only [Drawn, hu, centre, half, ht, add_comm d.hi d.lo]

/-- A component's formula is that of a parameter, when the text of the tolerance loses nothing. -/
theorem cf_pf {reads : Str → Option ℚ} {v : Val} {d : Dev} (hw : d.typ = .tolerance → Written reads d) : cf v d = pf v d := by
  unfold cf compFormula pf
  cases ht : d.typ <;> cases hd : d.dist <;> simp only
  · rw [tolArg_written (hw ht)]
  · rw [tolArg_written (hw ht)]

/-- C70. A prepared testbench launches one simulation per batch of runs, all of the same netlist but for the steps; at run −1 every element is
nominal, at the others a varied element has exactly the values of its distribution; all the rest is as in the netlist with the user's changes. -/
theorem C70_testbench {s : Simulator} {n : Option ℕ} {rps : ℤ} {a b c : St} (ha : Ready a) (hp : prepare s n a = some b) (hr : runTestbench s rps b = some c) :
    ∃ (net : Net) (lines : List Str) (user : Ed), a.received.foldlM applyCmd a.ed = some user ∧
      c.launched = (Model.Testbench.batches b.lastRun rps).map (fun x : ℤ × ℤ => (⟨net, lines ++ [stepLine x.1 x.2]⟩ : Ed)) ∧
      (∀ i j : ℤ, stepLine i j ∉ lines) ∧ (∀ line ∈ user.instr, line ∈ lines) ∧
      net .parameter runName = some (.num (-1)) ∧
      (∀ (reads : Str → Option ℚ) (k : Kind) (r : Name) (q : ℚ) (d : Dev), Varies a a.ed.net k r q d → Supported s d → (d.typ = .tolerance → Written reads d) →
        ∃ w, net k r = some w ∧ ∀ (more : List Str) (run v : ℚ), Possible reads (lines ++ more) run w v ↔ (run < 0 ∧ v = q) ∨ (0 ≤ run ∧ Drawn q d v)) ∧
      (∀ k r, ¬ Touched a a.ed.net k r → net k r = user.net k r) := by
  obtain ⟨net, u, user, h1, h2, h3, h4, h5, h6⟩ := core ha hp hr
  refine ⟨net, a.ed.instr ++ funcLines s u ++ instrs a.received, user, h1, h2, ?_, ?_, h3, ?_, h6⟩
  · intro i j m
    rcases List.mem_append.mp m with m | m
    · rcases List.mem_append.mp m with m | m
      · exact ha.no_step i j (List.mem_append_left _ m)
      · exact step_func s u i j m
    · exact ha.no_step i j (List.mem_append_right _ m)
  · obtain ⟨f', g1, -, -, -, g5⟩ := fold_user (fun _ => False) a.received a.ed a.ed user (fun _ _ _ h => h) (fun _ => rfl) (fun _ _ => rfl) h1
    intro line m
    rw [g5] at m
    rcases List.mem_append.mp m with m | m
    · exact List.mem_append_left _ (List.mem_append_left _ m)
    · exact List.mem_append_right _ m
  · intro reads k r q d hv hs hw
    have hpre : ∀ line ∈ a.ed.instr, ∀ f ∈ functions, ∀ xs e, definition line ≠ some (f, xs, e) :=
      fun line m => ha.no_function line (List.mem_append_left _ m)
    cases k with
    | component =>
      obtain ⟨g1, g2⟩ := h4 r q d hv
      refine ⟨_, g2, fun more run v => ?_⟩
      rw [cf_pf hw, List.append_assoc (a.ed.instr ++ funcLines s u)]
      exact possible_formula hpre g1 hs hv.2.2.1 (fun t => (hw t).1) run v
    | parameter =>
      obtain ⟨v0, g1, g2, g3, -⟩ := h5 r d hv.2.2.2
      rw [hv.1] at g1
      obtain rfl := Option.some.inj g1
      refine ⟨_, g2, fun more run v => ?_⟩
      rw [List.append_assoc (a.ed.instr ++ funcLines s u)]
      exact possible_formula hpre g3 hs hv.2.2.1 (fun t => (hw t).1) run v

/-- C70 (limit). A parameter with a range and a normal distribution: the deviation is multiplied by the middle of the range. -/
theorem C70_normal_range {s : Simulator} {n : Option ℕ} {rps : ℤ} {a b c : St} (ha : Ready a) (hp : prepare s n a = some b) (hr : runTestbench s rps b = some c) :
    ∀ x ∈ c.launched, ∀ (reads : Str → Option ℚ) (p : Name) (q : ℚ) (d : Dev), Varies a a.ed.net .parameter p q d → d.typ = .minmax → d.dist = .normal →
      ∃ w, x.net .parameter p = some w ∧ ∀ run v : ℚ, Possible reads x.instr run w v ↔
        (run < 0 ∧ v = q) ∨ (0 ≤ run ∧ ∃ g : ℚ, v = (d.lo + d.hi) / 2 + (d.lo + d.hi) / 2 * ((d.hi - d.lo) / 6) * g) := by
  obtain ⟨net, u, user, -, h2, -, -, h5, -⟩ := core ha hp hr
  intro x hx reads p q d hv ht hd
  rw [h2] at hx
  obtain ⟨b', -, rfl⟩ := List.mem_map.mp hx
  obtain ⟨v0, g1, g2, -, g4⟩ := h5 p d hv.2.2.2
  rw [hv.1] at g1
  obtain rfl := Option.some.inj g1
  refine ⟨_, g2, fun run v => ?_⟩
  obtain ⟨-, -, -, l4⟩ := lookup_funcs s u
  rw [g4 ht hd, if_pos rfl] at l4
  have hl := lookup_mid (pre := a.ed.instr) (post := instrs a.received ++ [stepLine b'.1 b'.2])
    (fun line m => ha.no_function line (List.mem_append_left _ m) "nrng".toList (by decide)) l4
  have hc := call_iff hl (vs := [q, (d.hi + d.lo) / 2, (d.hi - d.lo) / 6]) rfl run v
  have he : pf (.num q) d = .nrng (.num q) ((d.hi + d.lo) / 2) ((d.hi - d.lo) / 6) := by unfold pf; rw [ht, hd]
  rw [he, List.append_assoc (a.ed.instr ++ funcLines s u)]
  show Call _ _ _ _ _ ↔ _
  rw [hc, nrng_eval]
  refine or_congr Iff.rfl (and_congr Iff.rfl (exists_congr fun g => ?_))
  rw [add_comm d.lo d.hi, mul_add, mul_one, mul_assoc]

/-! ### Without preparation -/

theorem launched_net : ∀ (l : List (ℤ × ℤ)) (a : St), (l.foldl launchBatch a).ed.net = a.ed.net ∧
    ∀ x ∈ (l.foldl launchBatch a).launched, x ∈ a.launched ∨ x.net = a.ed.net := by
  intro l
  induction l with
  | nil => intro a; exact ⟨rfl, fun x m => Or.inl m⟩
  | cons b l ih =>
    intro a
    obtain ⟨h1, h2⟩ := ih (launchBatch a b)
    refine ⟨h1, fun x m => ?_⟩
    rcases h2 x m with m | e
    · rcases List.mem_append.mp m with m | m
      · exact Or.inl m
      · rw [List.mem_singleton.mp m]
        exact Or.inr rfl
    · exact Or.inr e

theorem prepParams_comp : ∀ (l : List (Name × Dev)) (acc : Net × Used) (n : Net) (u : Used), prepParams l acc = some (n, u) →
    ∀ r, n .component r = acc.1 .component r := by
  intro l
  induction l with
  | nil =>
    intro acc n u h r
    obtain rfl := Option.some.inj h
    rfl
  | cons x l ih =>
    intro acc n u h r
    obtain ⟨p, d⟩ := x
    rw [prepParams] at h
    cases hv : acc.1 .parameter p with
    | none => rw [hv] at h; exact absurd h (by simp)
    | some v =>
      rw [hv] at h
      simp only at h
      cases hf : paramFormula v d acc.2 with
      | none => rw [hf] at h; exact absurd h (by simp)
      | some y =>
        obtain ⟨o, w⟩ := y
        rw [hf] at h
        cases o with
        | none => exact ih _ _ _ h r
        | some w' =>
          rw [ih _ _ _ h r]
          simp only [Net.put, reduceCtorEq, false_and, if_false]

theorem prepare_net {s : Simulator} {n : Option ℕ} {a b : St} (h : prepare s n a = some b) : ∀ r, b.ed.net .component r = a.ed.net .component r := by
  unfold prepare at h
  cases hc : prepComps a a.candidates ([], ⟨false, false, false, false⟩) with
  | none => rw [hc] at h; exact absurd h (by simp)
  | some x =>
    obtain ⟨cmds, u0⟩ := x
    rw [hc] at h
    simp only at h
    cases hpp : prepParams a.paramDev (a.ed.net, u0) with
    | none => rw [hpp] at h; exact absurd h (by simp)
    | some y =>
      obtain ⟨net0, u⟩ := y
      rw [hpp] at h
      simp only at h
      obtain rfl := Option.some.inj h
      intro r
      simp only [Net.put, reduceCtorEq, false_and, if_false]
      exact prepParams_comp _ _ _ _ hpp r

/-- C70 (limit). A testbench that is run without being prepared before varies no component at all: the formulas are only recorded. -/
theorem C70_unprepared {s : Simulator} {rps : ℤ} {a c : St} (hp : a.prepared = false) (hr : runTestbench s rps a = some c) :
    ∃ user, a.received.foldlM applyCmd ⟨a.file, []⟩ = some user ∧ ∀ x ∈ c.launched, ∀ r, x.net .component r = user.net .component r := by
  rw [runTestbench, hp] at hr
  simp only [Bool.false_eq_true, if_false] at hr
  cases hpl : a.reset.play with
  | none => rw [hpl] at hr; exact absurd hr (by simp)
  | some a1 =>
    rw [hpl] at hr
    simp only at hr
    rw [St.play, St.reset] at hpl
    simp only [Bool.false_eq_true, if_false] at hpl
    cases hf : a.received.foldlM applyCmd ⟨a.file, []⟩ with
    | none => rw [hf] at hpl; exact absurd hpl (by simp)
    | some user =>
      rw [hf] at hpl
      obtain rfl := Option.some.inj hpl
      cases hq : prepare s none { a with ed := user, added := true } with
      | none =>
        beta_reduce at hr
        rw [hq] at hr
        exact absurd hr (by simp)
      | some b =>
        beta_reduce at hr
        rw [hq] at hr
        obtain rfl := Option.some.inj hr
        refine ⟨user, rfl, fun x m r => ?_⟩
        rcases (launched_net _ _).2 x m with m | e
        · exact absurd m List.not_mem_nil
        · rw [e]
          exact prepare_net hq r

/-- C70 (limit). Once the commands were played, nothing that is recorded later reaches a testbench. -/
theorem C70_already_played {s : Simulator} {rps : ℤ} {a c : St} (hp : a.prepared = true) (hadd : a.added = true) (hr : runTestbench s rps a = some c) :
    ∀ x ∈ c.launched, x.net = a.ed.net := by
  rw [runTestbench, hp, St.play, hadd] at hr
  obtain rfl := Option.some.inj hr
  intro x m
  rcases (launched_net _ _).2 x m with m | e
  · exact absurd m List.not_mem_nil
  · exact e

/-! ### run_analysis -/

theorem simValue_draw {q : ℚ} {d : Dev} {u g : ℚ} {w : Val} (h : simValue (.num q) d u g = some w) (ht : d.typ ≠ .none) (hd : d.dist ≠ .other) :
    w = .num (draw q d u g) := by
  unfold simValue at h
  unfold draw
  cases ht' : d.typ <;> cases hd' : d.dist <;> rw [ht', hd'] at h <;> simp only [Option.some.injEq] at h
  · rw [← h]; simp only [centre, half, ht']; congr 1; ring
  · rw [← h]; simp only [centre, half, ht']; congr 1; ring
  · exact absurd hd' hd
  · rw [← h]; simp only [centre, half, ht']; congr 1; ring
  · rw [← h]; simp only [centre, half, ht']; congr 1; ring
  · exact absurd hd' hd
  · exact absurd ht' ht
  · exact absurd ht' ht
  · exact absurd hd' hd

theorem simValue_same {v : Val} {d : Dev} {u g : ℚ} {w : Val} (h : simValue v d u g = some w) (hd : d.typ = .none ∨ d.dist = .other) : w = v := by
  unfold simValue at h
  rcases hd with e | e <;> rw [e] at h
  · cases hd' : d.dist <;> rw [hd'] at h <;> exact (Option.some.inj h).symm
  · cases hd' : d.typ <;> rw [hd'] at h <;> exact (Option.some.inj h).symm

theorem valueDev_val {a : St} {r : Name} {v : Val} {d : Dev} (h : a.valueDev r = some (v, d)) : a.ed.net .component r = some v := by
  unfold St.valueDev at h
  cases hh : r.head? with
  | none => rw [hh] at h; exact absurd h (by simp)
  | some c =>
    rw [hh] at h
    simp only at h
    by_cases hc : c ∈ allowed
    · rw [if_pos hc] at h
      cases hv : a.ed.net .component r with
      | none => rw [hv] at h; exact absurd h (by simp)
      | some w =>
        rw [hv] at h
        cases w with
        | num q =>
          simp only at h
          cases hl : a.deviceDev.lookup r with
          | some d' => rw [hl] at h; exact congrArg some (Prod.mk.inj (Option.some.inj h)).1
          | none =>
            rw [hl] at h
            simp only at h
            cases hd2 : a.defaultTol.lookup c with
            | some d' => rw [hd2] at h; exact congrArg some (Prod.mk.inj (Option.some.inj h)).1
            | none => rw [hd2] at h; exact congrArg some (Prod.mk.inj (Option.some.inj h)).1
        | text _ => exact congrArg some (Prod.mk.inj (Option.some.inj h)).1
        | utol _ _ => exact congrArg some (Prod.mk.inj (Option.some.inj h)).1
        | ntol _ _ => exact congrArg some (Prod.mk.inj (Option.some.inj h)).1
        | urng _ _ _ => exact congrArg some (Prod.mk.inj (Option.some.inj h)).1
        | nrng _ _ _ => exact congrArg some (Prod.mk.inj (Option.some.inj h)).1
    · rw [if_neg hc] at h
      exact absurd h (by simp)

theorem valueDev_put {a : St} {n : Net} {r : Name} (h : n .component r = a.ed.net .component r) :
    ({ a with ed := { a.ed with net := n } } : St).valueDev r = a.valueDev r := by
  unfold St.valueDev
  simp only [h]

theorem varyComps_spec (rc : Name → ℚ × ℚ) : ∀ (l : List Name) (a b : St), l.Nodup → varyComps rc l a = some b →
    ∃ n : Net, b = { a with ed := { a.ed with net := n } } ∧ (∀ p, n .parameter p = a.ed.net .parameter p) ∧
      (∀ r, r ∉ l → n .component r = a.ed.net .component r) ∧
      (∀ r ∈ l, ∃ v d w, a.valueDev r = some (v, d) ∧ simValue v d (rc r).1 (rc r).2 = some w ∧ n .component r = some w) := by
  intro l
  induction l with
  | nil =>
    intro a b _ h
    obtain rfl := Option.some.inj h
    exact ⟨a.ed.net, rfl, fun _ => rfl, fun _ _ => rfl, by simp⟩
  | cons ref l ih =>
    intro a b hn h
    rw [List.nodup_cons] at hn
    rw [varyComps] at h
    cases hv : a.valueDev ref with
    | none => rw [hv] at h; exact absurd h (by simp)
    | some x =>
      obtain ⟨v, d⟩ := x
      rw [hv] at h
      simp only at h
      cases hs : simValue v d (rc ref).1 (rc ref).2 with
      | none => rw [hs] at h; exact absurd h (by simp)
      | some w =>
        rw [hs] at h
        simp only at h
        have key : ∃ m : Net, varyComps rc l { a with ed := { a.ed with net := m } } = some b ∧ (∀ p, m .parameter p = a.ed.net .parameter p) ∧
            (∀ r, r ≠ ref → m .component r = a.ed.net .component r) ∧ m .component ref = some w := by
          by_cases hw : w = v
          · rw [if_pos hw] at h
            exact ⟨a.ed.net, h, fun _ => rfl, fun _ _ => rfl, by rw [hw]; exact valueDev_val hv⟩
          · rw [if_neg hw] at h
            have hv' := valueDev_val hv
            rw [Net.set, hv'] at h
            simp only [Option.isSome_some, if_true] at h
            refine ⟨_, h, ?_, ?_, ?_⟩
            · intro p; simp only [Net.put, reduceCtorEq, false_and, if_false]
            · intro r hr; simp only [Net.put, hr, and_false, if_false]
            · simp only [Net.put, and_self, if_true]
        obtain ⟨m, h', m1, m2, m3⟩ := key
        obtain ⟨n, e, i1, i2, i3⟩ := ih _ _ hn.2 h'
        refine ⟨n, e, fun p => (i1 p).trans (m1 p), ?_, ?_⟩
        · intro r hr
          rw [List.mem_cons, not_or] at hr
          exact (i2 r hr.2).trans (m2 r hr.1)
        · intro r hr
          rcases List.mem_cons.mp hr with rfl | hr
          · exact ⟨v, d, w, hv, hs, (i2 r hn.1).trans m3⟩
          · obtain ⟨v', d', w', j1, j2, j3⟩ := i3 r hr
            have hne : r ≠ ref := fun e0 : r = ref => hn.1 (e0 ▸ hr)
            rw [valueDev_put (m2 r hne)] at j1
            exact ⟨v', d', w', j1, j2, j3⟩

theorem varyParams_spec (rp : Name → ℚ × ℚ) : ∀ (l : List (Name × Dev)) (a n : Net), (l.map Prod.fst).Nodup → varyParams rp l a = some n →
    (∀ r, n .component r = a .component r) ∧ (∀ p, p ∉ l.map Prod.fst → n .parameter p = a .parameter p) ∧
    (∀ p d, (p, d) ∈ l → ∃ v w, a .parameter p = some v ∧ simValue v d (rp p).1 (rp p).2 = some w ∧ n .parameter p = some w) := by
  intro l
  induction l with
  | nil =>
    intro a n _ h
    obtain rfl := Option.some.inj h
    exact ⟨fun _ => rfl, fun _ _ => rfl, by simp⟩
  | cons x l ih =>
    intro a n hn h
    obtain ⟨p, d⟩ := x
    rw [List.map_cons, List.nodup_cons] at hn
    rw [varyParams] at h
    cases hv : a .parameter p with
    | none => rw [hv] at h; exact absurd h (by simp)
    | some v =>
      rw [hv] at h
      simp only at h
      cases hs : simValue v d (rp p).1 (rp p).2 with
      | none => rw [hs] at h; exact absurd h (by simp)
      | some w =>
        rw [hs] at h
        simp only at h
        have key : ∃ m : Net, varyParams rp l m = some n ∧ (∀ r, m .component r = a .component r) ∧
            (∀ q, q ≠ p → m .parameter q = a .parameter q) ∧ m .parameter p = some w := by
          by_cases hw : w = v
          · rw [if_pos hw] at h
            exact ⟨a, h, fun _ => rfl, fun _ _ => rfl, by rw [hw]; exact hv⟩
          · rw [if_neg hw] at h
            refine ⟨_, h, ?_, ?_, ?_⟩
            · intro r; simp only [Net.put, reduceCtorEq, false_and, if_false]
            · intro q hq; simp only [Net.put, hq, and_false, if_false]
            · simp only [Net.put, and_self, if_true]
        obtain ⟨m, h', m1, m2, m3⟩ := key
        obtain ⟨i1, i2, i3⟩ := ih _ _ hn.2 h'
        refine ⟨fun r => (i1 r).trans (m1 r), ?_, ?_⟩
        · intro q hq
          rw [List.map_cons, List.mem_cons, not_or] at hq
          exact (i2 q hq.2).trans (m2 q hq.1)
        · intro q d' hq
          rcases List.mem_cons.mp hq with e0 | hq
          · obtain ⟨rfl, rfl⟩ := Prod.mk.inj e0
            exact ⟨v, w, hv, hs, (i2 _ hn.1).trans m3⟩
          · obtain ⟨v', w', j1, j2, j3⟩ := i3 q d' hq
            have hne : q ≠ p := fun e0 : q = p => hn.1 (List.mem_map.mpr ⟨(q, d'), hq, e0⟩)
            exact ⟨v', w', by rw [← m2 q hne]; exact j1, j2, j3⟩

/-- The random numbers of an element. -/
def pick (r : (Name → ℚ × ℚ) × (Name → ℚ × ℚ)) : Kind → Name → ℚ × ℚ
  | .component => r.1
  | .parameter => r.2

/-- What one simulation of the analysis has. -/
def RunOf (a : St) (user : Ed) (r : (Name → ℚ × ℚ) × (Name → ℚ × ℚ)) (x : Ed) : Prop :=
  x.instr = user.instr ∧
  (∀ k ref q d, Varies a user.net k ref q d → x.net k ref = some (.num (draw q d (pick r k ref).1 (pick r k ref).2))) ∧
  (∀ ref, (¬ ∃ q d, Varies a user.net .component ref q d) → x.net .component ref = user.net .component ref) ∧
  (∀ p, p ∉ a.paramDev.map Prod.fst → x.net .parameter p = user.net .parameter p)

/-- Same set-up. -/
def Same (a b : St) : Prop := b.comps = a.comps ∧ b.file = a.file ∧ b.received = a.received ∧ b.deviceDev = a.deviceDev ∧ b.paramDev = a.paramDev ∧ b.defaultTol = a.defaultTol

theorem varies_same {a b : St} (h : Same a b) {n : Net} {k : Kind} {r : Name} {q : ℚ} {d : Dev} : Varies b n k r q d ↔ Varies a n k r q d := by
  obtain ⟨h1, h2, h3, h4, h5, h6⟩ := h
  unfold Varies DeviationOf
  rw [h1, h4, h5, h6]

theorem oneRun_spec {r : (Name → ℚ × ℚ) × (Name → ℚ × ℚ)} {a b : St} (hc : a.comps.Nodup) (hpn : (a.paramDev.map Prod.fst).Nodup) (h : oneRun r.1 r.2 a = some b) :
    ∃ user x, a.received.foldlM applyCmd ⟨a.file, []⟩ = some user ∧ Same a b ∧ b.launched = a.launched ++ [x] ∧ RunOf a user r x := by
  rw [oneRun] at h
  rw [St.play, St.reset] at h
  simp only [Bool.false_eq_true, if_false] at h
  cases hf : a.received.foldlM applyCmd ⟨a.file, []⟩ with
  | none => rw [hf] at h; exact absurd h (by simp)
  | some user =>
    rw [hf] at h
    simp only [Option.map_some] at h
    generalize hA : ({ a with ed := user, added := true, prepared := false } : St) = A at h
    have hAc : A.candidates = a.candidates := by rw [← hA]; rfl
    have hAs : Same a A := by rw [← hA]; exact ⟨rfl, rfl, rfl, rfl, rfl, rfl⟩
    have hAe : A.ed = user := by rw [← hA]
    have hAl : A.launched = a.launched := by rw [← hA]
    clear hA
    rw [hAc] at h
    cases hv : varyComps r.1 a.candidates A with
    | none => rw [hv] at h; exact absurd h (by simp)
    | some B =>
      rw [hv] at h
      simp only at h
      obtain ⟨n, rfl, n1, n2, n3⟩ := varyComps_spec r.1 _ _ _ (hc.filter _) hv
      simp only at h
      rw [hAs.2.2.2.2.1] at h
      cases hw : varyParams r.2 a.paramDev n with
      | none => rw [hw] at h; exact absurd h (by simp)
      | some m =>
        rw [hw] at h
        obtain rfl := Option.some.inj h
        obtain ⟨m1, m2, m3⟩ := varyParams_spec r.2 _ _ _ hpn hw
        refine ⟨user, ⟨m, A.ed.instr⟩, rfl, ⟨hAs.1, hAs.2.1, hAs.2.2.1, hAs.2.2.2.1, rfl, hAs.2.2.2.2.2⟩, by rw [← hAl], by rw [hAe], ?_, ?_, ?_⟩
        · intro k ref q d hvar
          have hvA := (varies_same hAs).mpr hvar
          rw [← hAe] at hvA
          cases k with
          | component =>
            obtain ⟨e1, e2⟩ := varies_valueDev hvA
            rw [hAc] at e2
            obtain ⟨v, d', w, j1, j2, j3⟩ := n3 ref e2
            rw [e1] at j1
            obtain ⟨rfl, rfl⟩ := Prod.mk.inj (Option.some.inj j1)
            show m .component ref = _
            rw [m1, j3, simValue_draw j2 hvar.2.1 hvar.2.2.1]
            rfl
          | parameter =>
            obtain ⟨v, w, j1, j2, j3⟩ := m3 ref d hvar.2.2.2
            rw [n1, hAe, hvar.1] at j1
            obtain rfl := Option.some.inj j1
            show m .parameter ref = _
            rw [j3, simValue_draw j2 hvar.2.1 hvar.2.2.1]
            rfl
        · intro ref hno
          show m .component ref = _
          rw [m1]
          by_cases hm : ref ∈ a.candidates
          · obtain ⟨v, d, w, j1, j2, j3⟩ := n3 ref hm
            have hcm : ref ∈ A.comps := by rw [hAs.1]; exact (List.mem_filter.mp hm).1
            have : d.typ = .none ∨ d.dist = .other := by
              by_contra hcon
              rw [not_or] at hcon
              obtain ⟨q, -, hvv⟩ := valueDev_varies j1 hcm hcon.1 hcon.2
              rw [varies_same hAs, hAe] at hvv
              exact hno ⟨q, d, hvv⟩
            rw [j3, simValue_same j2 this, ← valueDev_val j1, hAe]
          · rw [n2 ref hm, hAe]
        · intro p hp
          show m .parameter p = _
          rw [m2 p hp, n1, hAe]

theorem runs_spec : ∀ (rnd : List ((Name → ℚ × ℚ) × (Name → ℚ × ℚ))) (a b c : St), Same a b → a.comps.Nodup → (a.paramDev.map Prod.fst).Nodup →
    rnd.foldlM (fun (a : St) (r : (Name → ℚ × ℚ) × (Name → ℚ × ℚ)) => oneRun r.1 r.2 a) b = some c →
    ∃ L, c.launched = b.launched ++ L ∧
      List.Forall₂ (fun r x => ∃ user, a.received.foldlM applyCmd ⟨a.file, []⟩ = some user ∧ RunOf a user r x) rnd L := by
  intro rnd
  induction rnd with
  | nil =>
    intro a b c _ _ _ h
    obtain rfl := Option.some.inj h
    exact ⟨[], (List.append_nil _).symm, List.Forall₂.nil⟩
  | cons r rnd ih =>
    intro a b c hs hc hp h
    rw [List.foldlM_cons, Option.bind_eq_bind, Option.bind_eq_some_iff] at h
    obtain ⟨b1, h1, h2⟩ := h
    obtain ⟨user, x, e1, e2, e3, e4⟩ := oneRun_spec (by rw [hs.1]; exact hc) (by rw [hs.2.2.2.2.1]; exact hp) h1
    have hs1 : Same a b1 := ⟨e2.1.trans hs.1, e2.2.1.trans hs.2.1, e2.2.2.1.trans hs.2.2.1, e2.2.2.2.1.trans hs.2.2.2.1, e2.2.2.2.2.1.trans hs.2.2.2.2.1, e2.2.2.2.2.2.trans hs.2.2.2.2.2⟩
    obtain ⟨L, l1, l2⟩ := ih a b1 c hs1 hc hp h2
    refine ⟨x :: L, by rw [l1, e3, List.append_assoc]; rfl, List.Forall₂.cons ⟨user, ?_, ?_⟩ l2⟩
    · rw [hs.2.2.1, hs.2.1] at e1
      exact e1
    · obtain ⟨g1, g2, g3, g4⟩ := e4
      refine ⟨g1, fun k ref q d hv => g2 k ref q d ((varies_same hs).mpr hv), fun ref hno => g3 ref ?_, fun p hpp => g4 p ?_⟩
      · rintro ⟨q, d, hv⟩
        exact hno ⟨q, d, (varies_same hs).mp hv⟩
      · rw [hs.2.2.2.2.1]
        exact hpp

/-- C71. `run_analysis` launches one simulation per run. Each is the netlist of the file with the recorded changes, in which every element that
varies has the value drawn with its own random number of this run, and nothing else is changed. -/
theorem C71_run_analysis {rnd : List ((Name → ℚ × ℚ) × (Name → ℚ × ℚ))} {a c : St} (hc : a.comps.Nodup) (hp : (a.paramDev.map Prod.fst).Nodup)
    (h : runAnalysis rnd a = some c) :
    c.launched.length = rnd.length ∧
    List.Forall₂ (fun (r : (Name → ℚ × ℚ) × (Name → ℚ × ℚ)) (x : Ed) => ∃ user, a.received.foldlM applyCmd ⟨a.file, []⟩ = some user ∧
      x.instr = user.instr ∧
      (∀ k ref q d, Varies a user.net k ref q d → x.net k ref = some (.num (draw q d (pick r k ref).1 (pick r k ref).2))) ∧
      (∀ ref, (¬ ∃ q d, Varies a user.net .component ref q d) → x.net .component ref = user.net .component ref) ∧
      (∀ p, p ∉ a.paramDev.map Prod.fst → x.net .parameter p = user.net .parameter p)) rnd c.launched := by
  obtain ⟨L, e, hL⟩ := runs_spec rnd a { a with launched := [] } c ⟨rfl, rfl, rfl, rfl, rfl, rfl⟩ hc hp h
  have e' : c.launched = L := e
  rw [e']
  exact ⟨hL.length_eq.symm, hL⟩

/-- C71. A drawn value is one of the distribution. -/
theorem C71_drawn (q : ℚ) (d : Dev) (u g : ℚ) (h0 : 0 ≤ u) (h1 : u ≤ 1) : Drawn q d (draw q d u g) := by
  unfold Drawn draw
  cases d.dist with
  | uniform => exact ⟨2 * u - 1, by linarith, by linarith, by ring⟩
  | normal => exact ⟨g, rfl⟩
  | other => rfl

/-- C71. With a tolerance, a uniform value is off its nominal one by at most this fraction. -/
theorem C71_tolerance (q : ℚ) (d : Dev) (v : ℚ) (ht : d.typ = .tolerance) (hd : d.dist = .uniform) (hv : Drawn q d v) : |v - q| ≤ |q| * |d.lo| := by
  unfold Drawn at hv
  rw [hd] at hv
  obtain ⟨t, h1, h2, rfl⟩ := hv
  simp only [centre, half, ht]
  rw [add_sub_cancel_left, abs_mul, abs_mul]
  have : |t| ≤ 1 := abs_le.mpr ⟨h1, h2⟩
  calc |q| * |d.lo| * |t| ≤ |q| * |d.lo| * 1 := mul_le_mul_of_nonneg_left this (by positivity)
    _ = |q| * |d.lo| := mul_one _

/-- C71. With a range, a uniform value is within it. -/
theorem C71_range (q : ℚ) (d : Dev) (v : ℚ) (ht : d.typ = .minmax) (hd : d.dist = .uniform) (hle : d.lo ≤ d.hi) (hv : Drawn q d v) : d.lo ≤ v ∧ v ≤ d.hi := by
  unfold Drawn at hv
  rw [hd] at hv
  obtain ⟨t, h1, h2, rfl⟩ := hv
  simp only [centre, half, ht]
  constructor <;> nlinarith

/-! ### A concrete analysis -/

def r1 : Name := "R1".toList
def c1 : Name := "C1".toList
def v1 : Name := "V1".toList
def gain : Name := "gain".toList

/-- R1 = 1000, C1 = 2, V1 is a text; the parameter gain is 10. -/
def sampleNet : Net := fun k r =>
  ([((Kind.component, r1), Val.num 1000), ((Kind.component, c1), .num 2), ((Kind.component, v1), .text "SINE(0 1)".toList), ((Kind.parameter, gain), .num 10)] :
    List ((Kind × Name) × Val)).lookup (k, r)

def tol (t : ℚ) (s : Str) (x : Dist) : Dev := ⟨t, -t, .tolerance, x, s⟩
def rng (lo hi : ℚ) (x : Dist) : Dev := ⟨lo, hi, .minmax, x, ['0']⟩

/-- Resistors have 5 %, C1 a normal 30 %, gain lies in 8 to 12; the user changed V1 to 5 and added an instruction. -/
def sample : St where
  comps := [r1, c1, v1]
  file := sampleNet
  ed := ⟨sampleNet, []⟩
  received := [.setComponent v1 (.num 5), .instruction ".tran 1".toList]
  added := false
  prepared := false
  lastRun := 0
  deviceDev := [(c1, tol (3 / 10) "0.3".toList .normal)]
  paramDev := [(gain, rng 8 12 .uniform)]
  defaultTol := [('R', tol (1 / 20) "0.05".toList .uniform)]
  launched := []

/-- The values and the instructions of what was launched. -/
structure Row where
  r : Option Val
  c : Option Val
  v : Option Val
  g : Option Val
  instr : List Str
  deriving DecidableEq

def shown (o : Option St) : Option (List Row) :=
  o.map (fun c : St => c.launched.map (fun e : Ed => (⟨e.net .component r1, e.net .component c1, e.net .component v1, e.net .parameter gain, e.instr⟩ : Row)))

theorem C70_sample : Ready sample ∧ Varies sample sampleNet .component r1 1000 (tol (1 / 20) "0.05".toList .uniform) ∧
    Varies sample sampleNet .parameter gain 10 (rng 8 12 .uniform) ∧
    shown ((prepare .ltspice (some 3) sample).bind (runTestbench .ltspice 3)) =
      some ([(-1, 1), (2, 3)].map (fun b : ℤ × ℤ => (⟨some (.utol (.num 1000) "0.05".toList), some (.ntol (.num 2) "0.3".toList), some (.num 5),
        some (.urng (.num 10) 10 2), [funcLine .ltspice 0, funcLine .ltspice 1, funcLine .ltspice 2, ".tran 1".toList, stepLine b.1 b.2]⟩ : Row))) := by
  refine ⟨⟨rfl, by decide, by decide, by decide, ?_, ?_, ?_⟩, ?_, ?_, by decide +kernel⟩
  · intro p v m
    simp [sample] at m
  · intro line m f hf xs e
    have : line = ".tran 1".toList := by simpa [sample, instrs] using m
    rw [this]
    rw [show definition ".tran 1".toList = none from rfl]
    exact fun h => absurd h (by simp)
  · intro i j m
    have : stepLine i j = ".tran 1".toList := by simpa [sample, instrs] using m
    have h := step_char i j
    rw [this] at h
    exact absurd h (by decide)
  · refine ⟨by decide +kernel, by decide, by decide, by decide, ⟨'R', by decide, rfl⟩, Or.inr ⟨by decide +kernel, 'R', rfl, by decide +kernel⟩⟩
  · exact ⟨by decide +kernel, by decide, by decide, by simp [sample]⟩

/-- C70 (limit). A value recorded by the user for a component that varies is replaced by the formula of the value of the file. -/
theorem C70_recorded_value :
    ((shown ((prepare .ltspice (some 3) { sample with received := [.setComponent r1 (.num 7)] }).bind (runTestbench .ltspice 9))).bind (fun l => l.head?.map Row.r)) =
      some (some (.utol (.num 1000) "0.05".toList)) := by decide +kernel

/-- C70 (limit). A component with a range and a normal distribution calls a function that is not defined. -/
theorem C70_undefined :
    ((prepare .ltspice (some 3) { sample with deviceDev := [(r1, rng 900 1100 .normal)], paramDev := [] }).bind (runTestbench .ltspice 9)).map
        (fun c : St => c.launched.map (fun e : Ed => (e.net .component r1, ((e.instr.filterMap definition).lookup "nrng".toList).isSome))) =
      some [(some (.nrng (.num 1000) 1000 (200 / 6)), false)] := by decide +kernel

/-- C70 (limit). For QSPICE the function of a uniform range has a bracket that is never closed. -/
theorem C70_qspice_range : definition (funcLine .qspice 2) = none ∧
    (funcLine .qspice 2).count '(' = (funcLine .qspice 2).count ')' + 1 := by
  refine ⟨rfl, by decide +kernel⟩

/-- C70 (limit). The text of a tolerance loses its final zeros: 10 becomes 1, 1e-10 becomes 1e-1, and 0 nothing. -/
theorem C70_tolerance_text : tolArg (tol 10 "10".toList .uniform) = "1".toList ∧ tolArg (tol (1 / 10000000000) "1e-10".toList .uniform) = "1e-1".toList ∧
    tolArg (tol 0 "0".toList .uniform) = [] := by decide +kernel

/-- C70 (limit). Without preparation: the functions are defined, the parameters vary, the components do not; running again does not help. -/
theorem C70_unprepared_sample :
    (shown (runTestbench .ltspice 2000 sample)).map (fun l => l.map (fun x : Row => (x.r, x.c, x.g))) = some [(some (.num 1000), some (.num 2), some (.urng (.num 10) 10 2))] ∧
    (shown ((runTestbench .ltspice 2000 sample).bind (runTestbench .ltspice 2000))).map (fun l => l.map (fun x : Row => (x.r, x.c, x.g))) =
      some [(some (.num 1000), some (.num 2), some (.urng (.num 10) 10 2))] := by decide +kernel

theorem C71_sample :
    shown (runAnalysis [(fun _ => (1, 0), fun _ => (1 / 2, 0)), (fun _ => (0, 3), fun _ => (0, 0))] sample) =
      some [⟨some (.num 1050), some (.num 2), some (.num 5), some (.num 10), [".tran 1".toList]⟩,
        ⟨some (.num 950), some (.num (26 / 10)), some (.num 5), some (.num 8), [".tran 1".toList]⟩] := by decide +kernel

/-- C71 (limit). After `prepare_testbench` the formulas are among the recorded changes: no component varies, and the functions they call are not defined. -/
theorem C71_after_preparation :
    ((prepare .ltspice (some 3) sample).bind (runAnalysis [(fun _ => (1, 0), fun _ => (1 / 2, 0))])).map
        (fun c : St => c.launched.map (fun e : Ed => (e.net .component r1, ((e.instr.filterMap definition).lookup "utol".toList).isSome))) =
      some [(some (.utol (.num 1000) "0.05".toList), false)] := by decide +kernel

end Props.MonteCarlo
