import Verif.Model.Values
import Verif.Props.Export
import Verif.Props.SubFind
import Verif.Lemmas.FloatUnit
/-
C98: values in log files.
-/
namespace Props.Values
open Model.Values
open Model.Regex hiding Str
open Model.CompLine (lit dot)
open Model.Export (lits)
open Lemmas.Regex
abbrev Str := List Char

/-! ### Specification -/

/-- The text of a complex number: two numbers in parentheses, the first perhaps in dB, the second perhaps in degrees. Whatever follows the closing
parenthesis is ignored. -/
structure Reads (s mag : Str) (db : Bool) (ph : Str) (deg : Bool) : Prop where
  text : ∃ rest : Str, s = '(' :: (mag ++ (if db then "dB".toList else []) ++ ',' :: (ph ++ (if deg then "°".toList else []) ++ ')' :: rest))
  mag_ok : ∀ c ∈ mag, c ≠ ',' ∧ c ≠ '\n'
  ph_ok : ∀ c ∈ ph, c ≠ ')' ∧ c ≠ '\n'
  no_db : db = false → ¬ "dB".toList <:+ mag
  no_deg : deg = false → ¬ "°".toList <:+ ph

/-! ### The expression -/

theorem first_stop (stop : Char) : ∀ (a b r r' : Str), stop ∉ a → stop ∉ b → a ++ stop :: r = b ++ stop :: r' → a = b := by
  intro a
  induction a with
  | nil =>
    intro b r r' _ hb h
    cases b with
    | nil => rfl
    | cons c b => injection h with h1 _; subst h1; simp at hb
  | cons c a ih =>
    intro b r r' ha hb h
    cases b with
    | nil => injection h with h1 _; subst h1; simp at ha
    | cons d b =>
      injection h with h1 h2
      subst h1
      rw [ih b r r' (by intro x; exact ha (by simp [x])) (by intro x; exact hb (by simp [x])) h2]

theorem go_nil (k : St → Option St) (s : St) : go .nil k s = k s := rfl

/-- The rest of a field at a position: the tag, perhaps, then the stop. -/
theorem tail_none (h : G) (tag : Str) (stop : Char) (R : Re) (k : St → Option St) (t : St) (u r : Str) (hst : stop ∉ tag) (hr : t.rest = u ++ stop :: r)
    (hu : stop ∉ u) (hne : u ≠ []) (hnt : u ≠ tag) : go (.seq (opt (.grp h (lits tag .nil))) (.seq (lit stop) R)) k t = none := by
  rw [Props.LogFile.go_seq]
  unfold opt
  rw [Props.LogFile.go_alt, Props.LogFile.go_grp]
  have e1 : go (lits tag .nil) (fun t' => go (.seq (lit stop) R) k (St.close h t t')) t = none := by
    by_cases hp : tag <+: t.rest
    · obtain ⟨q, hq⟩ := hp
      rw [Props.Export.go_lits tag .nil _ t q hq.symm]
      show go (.seq (lit stop) R) k _ = none
      rw [Props.LogFile.go_seq]
      apply Props.LogFile.lit_none
      intro d hd
      rintro rfl
      have hq' : q.head? = some d := hd
      cases q with
      | nil => cases hq'
      | cons e q =>
        simp only [List.head?_cons, Option.some.injEq] at hq'
        subst hq'
        exact hnt (first_stop e u tag r q hu hst (hr.symm.trans hq.symm))
    · exact Props.Export.lits_none tag .nil _ t hp
  rw [e1, Option.none_or]
  show go (.seq (lit stop) R) k t = none
  rw [Props.LogFile.go_seq]
  apply Props.LogFile.lit_none
  intro d hd
  rw [hr] at hd
  obtain ⟨c, u, rfl⟩ := List.exists_cons_of_ne_nil hne
  simp only [List.cons_append, List.head?_cons, Option.some.injEq] at hd
  subst hd
  rintro rfl
  simp at hu

/-- One field of the expression. -/
theorem field (g h : G) (tag : Str) (stop : Char) (R : Re) (k : St → Option St) (s : St) (f r : Str) (b : Bool) (x : St) (htag : tag ≠ []) (hst : stop ∉ tag)
    (hs : s.rest = f ++ (if b then tag else []) ++ stop :: r) (hf : ∀ c ∈ f, c ≠ stop ∧ c ≠ '\n') (hb : b = false → ¬ tag <:+ f)
    (hx : go R k ⟨s.pos + f.length + (if b then tag else []).length + 1, r, (if b then [(h, s.pos + f.length, tag)] else []) ++ (g, s.pos, f) :: s.caps⟩ = some x) :
    go (.seq (.grp g (.lazy dot)) (.seq (opt (.grp h (lits tag .nil))) (.seq (lit stop) R))) k s = some x := by
  have hfs : stop ∉ f := fun hm => (hf stop hm).1 rfl
  rw [Props.LogFile.go_seq, Props.LogFile.go_grp]
  show less (go dot) _ s.rest.length s = some x
  refine Props.SubFind.lazy_cls (fun c => c ≠ '\n') _ x f ((if b then tag else []) ++ stop :: r) _ s (by rw [hs]; simp) ?_ (by rw [hs]; simp) ?_ ?_
  · intro c hc; simpa using (hf c hc).2
  · intro a b' eab hb'
    refine tail_none h tag stop R k _ (b' ++ (if b then tag else [])) r hst (by simp [St.close, adv]) ?_ (by simp [hb']) ?_
    · cases b
      · simp only [Bool.false_eq_true, if_false, List.append_nil]
        intro hm; exact hfs (by rw [eab]; simp [hm])
      · simp only [if_true, List.mem_append, not_or]
        exact ⟨fun hm => hfs (by rw [eab]; simp [hm]), hst⟩
    · cases b
      · simp only [Bool.false_eq_true, if_false, List.append_nil]
        rintro rfl
        exact hb rfl ⟨a, eab.symm⟩
      · simp only [if_true]
        intro e
        exact hb' (List.append_left_eq_self.mp e)
  · have hc : St.close g s (adv s f ((if b then tag else []) ++ stop :: r)) =
        ⟨s.pos + f.length, (if b then tag else []) ++ stop :: r, (g, s.pos, f) :: s.caps⟩ := by
      simp [St.close, adv, hs]
    rw [hc, Props.LogFile.go_seq]
    unfold opt
    rw [Props.LogFile.go_alt, Props.LogFile.go_grp]
    cases b
    · simp only [Bool.false_eq_true, if_false, List.nil_append, List.length_nil, Nat.add_zero] at hx ⊢
      rw [Props.Export.lits_none tag .nil _ _ ?_, Option.none_or]
      · rw [go_nil, Props.LogFile.go_seq, Props.LogFile.go_lit stop _ _ r rfl]
        exact hx
      · rintro ⟨q, hq⟩
        obtain ⟨c, tag', rfl⟩ := List.exists_cons_of_ne_nil htag
        have hq' : c :: tag' ++ q = stop :: r := hq
        injection hq' with h1 _
        subst h1
        simp at hst
    · simp only [if_true] at hx ⊢
      rw [Props.Export.go_lits tag .nil _ _ (stop :: r) rfl]
      rw [go_nil, Props.LogFile.go_seq, Props.LogFile.go_lit stop _ _ r rfl]
      have e3 : adv (St.close h ⟨s.pos + f.length, tag ++ stop :: r, (g, s.pos, f) :: s.caps⟩ (adv ⟨s.pos + f.length, tag ++ stop :: r, (g, s.pos, f) :: s.caps⟩ tag (stop :: r))) [stop] r =
          ⟨s.pos + f.length + tag.length + 1, r, [(h, s.pos + f.length, tag)] ++ (g, s.pos, f) :: s.caps⟩ := by
        simp [St.close, adv]
      rw [e3, hx]
      rfl

theorem exec_reads (mag ph rest : Str) (db deg : Bool) (h1 : ∀ c ∈ mag, c ≠ ',' ∧ c ≠ '\n') (h2 : ∀ c ∈ ph, c ≠ ')' ∧ c ≠ '\n')
    (h3 : db = false → ¬ "dB".toList <:+ mag) (h4 : deg = false → ¬ "°".toList <:+ ph) :
    exec complexRe ('(' :: (mag ++ (if db then "dB".toList else []) ++ ',' :: (ph ++ (if deg then "°".toList else []) ++ ')' :: rest))) =
      some ⟨1 + mag.length + (if db then "dB".toList else []).length + 1 + ph.length + (if deg then "°".toList else []).length + 1, rest,
        (if deg then [(.formula2, 1 + mag.length + (if db then "dB".toList else []).length + 1 + ph.length, "°".toList)] else []) ++
        (.number, 1 + mag.length + (if db then "dB".toList else []).length + 1, ph) ::
        ((if db then [(.formula1, 1 + mag.length, "dB".toList)] else []) ++ (.value, 1, mag) :: [])⟩ := by
  unfold exec complexRe
  rw [Props.LogFile.go_seq, Props.LogFile.go_lit '(' _ _ _ rfl]
  refine field .value .formula1 "dB".toList ',' _ _ _ mag _ db _ (by decide) (by decide) rfl h1 h3 ?_
  refine field .number .formula2 "°".toList ')' _ _ _ ph _ deg _ (by decide) (by decide) rfl h2 h4 ?_
  rfl

theorem fields_of_reads (s mag ph : Str) (db deg : Bool) (h : Reads s mag db ph deg) : fields s = some (mag, db, ph, deg) := by
  obtain ⟨⟨rest, e⟩, h1, h2, h3, h4⟩ := h
  subst e
  unfold fields
  rw [exec_reads mag ph rest db deg h1 h2 h3 h4]
  simp only [Option.map_some]
  cases db <;> cases deg <;> rfl

theorem run_lazy_cls {p : Char → Bool} {s t : St} (h : Run (.lazy (.cls p)) s t) : ∃ a, Between s t a ∧ (∀ c ∈ a, p c = true) := by
  generalize hr : Re.lazy (.cls p) = r at h
  induction h with
  | lstop => exact ⟨[], .refl _, by simp⟩
  | @lonce a s t u h1 hl h2 _ ih2 =>
    injection hr with hr
    subst hr
    obtain ⟨b, e1, e2⟩ := ih2 rfl
    cases h1 with
    | @cls _ _ c r hrest hp =>
      refine ⟨c :: b, ⟨?_, ?_⟩, ?_⟩
      · have := e1.text
        have h3 : (s.next r).rest = r := rfl
        rw [h3] at this
        rw [hrest, this]; rfl
      · have := e1.pos
        rw [this]
        simp [St.next]; omega
      · intro d hd
        rcases List.mem_cons.mp hd with rfl | hd
        · exact hp
        · exact e2 d hd
  | _ => cases hr

theorem run_lit {c : Char} {s t : St} (h : Run (lit c) s t) : s.rest = c :: t.rest := by
  unfold lit at h
  cases h with
  | @cls _ _ d r hr hp =>
    rw [hr]
    have : d = c := by simpa using hp
    subst this; rfl

theorem run_lits {tag : Str} : ∀ {s t : St}, Run (lits tag .nil) s t → s.rest = tag ++ t.rest := by
  induction tag with
  | nil => intro s t h; cases h; rfl
  | cons c tag ih =>
    intro s t h
    cases h with
    | seq h1 h2 => rw [run_lit h1, ih h2]; rfl

theorem run_opt {g : G} {tag : Str} {s t : St} (h : Run (opt (.grp g (lits tag .nil))) s t) : s.rest = tag ++ t.rest ∨ s.rest = t.rest := by
  unfold opt at h
  cases h with
  | left h => cases h with | grp h => exact .inl (by have e := run_lits h; exact e)
  | right h => cases h; exact .inr rfl

/-- Split at the first occurrence. -/
theorem split_first (stop : Char) : ∀ (w : Str), stop ∈ w → ∃ a b, w = a ++ stop :: b ∧ stop ∉ a := by
  intro w
  induction w with
  | nil => intro h; simp at h
  | cons c w ih =>
    intro h
    by_cases hc : c = stop
    · subst hc; exact ⟨[], w, rfl, by simp⟩
    · obtain ⟨a, b, e, ha⟩ := ih (by rcases List.mem_cons.mp h with h | h; exact absurd h.symm hc; exact h)
      exact ⟨c :: a, b, by rw [e]; rfl, by simp only [List.mem_cons, not_or]; exact ⟨fun x => hc x.symm, ha⟩⟩

/-- Take a tag off the end. -/
theorem cut_tag (tag u : Str) : ∃ (b : Bool) (f : Str), u = f ++ (if b then tag else []) ∧ (b = false → ¬ tag <:+ f) := by
  by_cases h : tag <:+ u
  · obtain ⟨f, e⟩ := h
    exact ⟨true, f, by simp [e], by simp⟩
  · exact ⟨false, u, by simp, fun _ => h⟩

theorem reads_of_match (s : Str) (m : St) (h : exec complexRe s = some m) : ∃ mag db ph deg, Reads s mag db ph deg := by
  obtain ⟨t, h1, _⟩ := go_sound complexRe _ _ _ h
  unfold complexRe at h1
  obtain ⟨w, r, e, hc, hn⟩ : ∃ w r : Str, s = '(' :: (w ++ ')' :: r) ∧ ',' ∈ w ∧ '\n' ∉ w := by
    cases h1 with
    | seq a1 a2 =>
      have q0 : s = _ := run_lit a1
      cases a2 with
      | seq b1 b2 =>
        cases b1 with
        | grp b1 =>
          unfold dot at b1
          obtain ⟨u, hu, hun⟩ := run_lazy_cls b1
          cases b2 with
          | seq c1 c2 =>
            have q1 := run_opt c1
            cases c2 with
            | seq d1 d2 =>
              have q2 := run_lit d1
              cases d2 with
              | seq e1 e2 =>
                cases e1 with
                | grp e1 =>
                  unfold dot at e1
                  obtain ⟨v, hv, hvn⟩ := run_lazy_cls e1
                  cases e2 with
                  | seq f1 f2 =>
                    have q3 := run_opt f1
                    cases f2 with
                    | @seq _ _ _ t9 _ g1 g2 =>
                      have q4 := run_lit g1
                      have hu' := hu.text
                      have hv' := hv.text
                      have cl : ∀ (g : G) (s t : St), (St.close g s t).rest = t.rest := fun _ _ _ => rfl
                      rw [cl] at q1 q3
                      have nu : '\n' ∉ u := fun hm => by simpa using hun _ hm
                      have nv : '\n' ∉ v := fun hm => by simpa using hvn _ hm
                      have nd : '\n' ∉ "dB".toList := by decide
                      have ng : '\n' ∉ "°".toList := by decide
                      rw [hu'] at q0
                      rw [hv'] at q2
                      rw [q4] at q3
                      rcases q1 with q1 | q1 <;> rcases q3 with q3 | q3
                      · refine ⟨u ++ "dB".toList ++ ',' :: (v ++ "°".toList), t9.rest, ?_, by simp, ?_⟩
                        · rw [q0, q1, q2, q3]; simp
                        · simp only [List.mem_append, List.mem_cons, not_or]; exact ⟨⟨nu, nd⟩, by decide, nv, ng⟩
                      · refine ⟨u ++ "dB".toList ++ ',' :: v, t9.rest, ?_, by simp, ?_⟩
                        · rw [q0, q1, q2, q3]; simp
                        · simp only [List.mem_append, List.mem_cons, not_or]; exact ⟨⟨nu, nd⟩, by decide, nv⟩
                      · refine ⟨u ++ ',' :: (v ++ "°".toList), t9.rest, ?_, by simp, ?_⟩
                        · rw [q0, q1, q2, q3]; simp
                        · simp only [List.mem_append, List.mem_cons, not_or]; exact ⟨nu, by decide, nv, ng⟩
                      · refine ⟨u ++ ',' :: v, t9.rest, ?_, by simp, ?_⟩
                        · rw [q0, q1, q2, q3]; simp
                        · simp only [List.mem_append, List.mem_cons, not_or]; exact ⟨nu, by decide, nv⟩
  obtain ⟨u, v, ew, hu⟩ := split_first ',' w hc
  obtain ⟨p, r', ep, hp⟩ := split_first ')' (v ++ ')' :: r) (by simp)
  have hpn : '\n' ∉ p := by
    intro hm
    have hl : p.length ≤ v.length := by
      by_contra hcon
      have h2 : v ++ [')'] <+: p := by
        have : v ++ [')'] <+: p ++ ')' :: r' := ⟨r, by rw [← ep]; simp⟩
        exact List.prefix_of_prefix_length_le this (List.prefix_append _ _) (by simp; omega)
      obtain ⟨z, hz⟩ := h2
      exact hp (by rw [← hz]; simp)
    have h3 : p <+: v := List.prefix_of_prefix_length_le ⟨')' :: r', rfl⟩ (by rw [← ep]; exact List.prefix_append _ _) hl
    obtain ⟨z, hz⟩ := h3
    exact hn (by rw [ew, ← hz]; simp [hm])
  have hun : '\n' ∉ u := fun hm => hn (by rw [ew]; simp [hm])
  obtain ⟨db, mag, e1, n1⟩ := cut_tag "dB".toList u
  obtain ⟨deg, ph, e2, n2⟩ := cut_tag "°".toList p
  refine ⟨mag, db, ph, deg, ⟨r', ?_⟩, ?_, ?_, n1, n2⟩
  · rw [e, ew, ← e1, ← e2, ← ep]; simp
  · intro c hc
    refine ⟨?_, ?_⟩
    · rintro rfl; exact hu (by rw [e1]; simp [hc])
    · rintro rfl; exact hun (by rw [e1]; simp [hc])
  · intro c hc
    refine ⟨?_, ?_⟩
    · rintro rfl; exact hp (by rw [e2]; simp [hc])
    · rintro rfl; exact hpn (by rw [e2]; simp [hc])

/-- C98: which texts are read as complex numbers, and what is read from them. -/
theorem C98_form (s mag ph : Str) (db deg : Bool) : fields s = some (mag, db, ph, deg) ↔ Reads s mag db ph deg := by
  refine ⟨?_, fields_of_reads s mag ph db deg⟩
  intro h
  cases he : exec complexRe s with
  | none => unfold fields at h; rw [he] at h; cases h
  | some m =>
    obtain ⟨mag', db', ph', deg', hr⟩ := reads_of_match s m he
    have := fields_of_reads _ _ _ _ _ hr
    rw [h] at this
    injection this with this
    injection this with a1 this
    injection this with a2 this
    injection this with a3 a4
    subst a1 a2 a3 a4
    exact hr

/-! ### The number -/

/-- C98: without degrees the two numbers are the real and the imaginary part. -/
theorem C98_cartesian (p : Parts) (h : p.deg = false) : (complexValue p).re = p.mag ∧ (complexValue p).im = p.ph := by
  unfold complexValue
  rw [if_pos h]
  exact ⟨rfl, rfl⟩

theorem polar_eq (r θ : ℝ) : (⟨r * Real.cos θ, r * Real.sin θ⟩ : ℂ) = (r : ℂ) * (Complex.cos θ + Complex.sin θ * Complex.I) := by
  rw [← Complex.ofReal_cos, ← Complex.ofReal_sin]
  apply Complex.ext <;> simp [-Complex.ofReal_cos, -Complex.ofReal_sin]

theorem polar_mag (r θ : ℝ) (hr : 0 ≤ r) : mag ⟨r * Real.cos θ, r * Real.sin θ⟩ = r := by
  unfold mag
  rw [polar_eq, norm_mul, Complex.norm_cos_add_sin_mul_I, mul_one, Complex.norm_real, Real.norm_of_nonneg hr]

theorem polar_ph (r φ : ℝ) (hr : 0 < r) (h1 : -180 < φ) (h2 : φ ≤ 180) :
    ph ⟨r * Real.cos (Real.pi * φ / 180), r * Real.sin (Real.pi * φ / 180)⟩ = φ := by
  have hpi := Real.pi_pos
  unfold ph
  rw [polar_eq, Complex.arg_mul_cos_add_sin_mul_I hr]
  · field_simp
  · constructor
    · rw [lt_div_iff₀ (by norm_num)]; nlinarith
    · rw [div_le_iff₀ (by norm_num)]; nlinarith

/-- C98: magnitude in dB and phase in degrees: the number has exactly this magnitude and, for a phase between -180 and 180, this phase, and gives them
back. -/
theorem C98_decibel (p : Parts) (h1 : p.deg = true) (h2 : p.db = true) :
    mag (complexValue p) = (10 : ℝ) ^ ((p.mag : ℝ) / 20) ∧ magDb (complexValue p) = p.mag ∧
    (-180 < p.ph → p.ph ≤ 180 → ph (complexValue p) = p.ph) := by
  have hr : (0 : ℝ) < (10 : ℝ) ^ ((p.mag : ℝ) / 20) := Real.rpow_pos_of_pos (by norm_num) _
  have e : complexValue p = ⟨(10 : ℝ) ^ ((p.mag : ℝ) / 20) * Real.cos (Real.pi * (p.ph : ℝ) / 180), (10 : ℝ) ^ ((p.mag : ℝ) / 20) * Real.sin (Real.pi * (p.ph : ℝ) / 180)⟩ := by
    unfold complexValue
    rw [if_neg (by rw [h1]; decide)]
    simp only
    rw [if_pos h2]
  rw [e]
  have hm := polar_mag ((10 : ℝ) ^ ((p.mag : ℝ) / 20)) (Real.pi * (p.ph : ℝ) / 180) hr.le
  refine ⟨hm, ?_, ?_⟩
  · unfold magDb
    rw [hm, Real.logb_rpow (by norm_num) (by norm_num)]
    ring
  · intro a b
    exact polar_ph _ _ hr (by exact_mod_cast a) (by exact_mod_cast b)

/-- C98: magnitude and phase in degrees. -/
theorem C98_polar (p : Parts) (h1 : p.deg = true) (h2 : p.db = false) (h3 : 0 < p.mag) :
    mag (complexValue p) = p.mag ∧ (-180 < p.ph → p.ph ≤ 180 → ph (complexValue p) = p.ph) := by
  have hr : (0 : ℝ) < (p.mag : ℝ) := by exact_mod_cast h3
  have e : complexValue p = ⟨(p.mag : ℝ) * Real.cos (Real.pi * (p.ph : ℝ) / 180), (p.mag : ℝ) * Real.sin (Real.pi * (p.ph : ℝ) / 180)⟩ := by
    unfold complexValue
    rw [if_neg (by rw [h1]; decide)]
    simp only
    rw [if_neg (by rw [h2]; decide)]
  rw [e]
  refine ⟨polar_mag _ _ hr.le, ?_⟩
  intro a b
  exact polar_ph _ _ hr (by exact_mod_cast a) (by exact_mod_cast b)

/-- C98: a phase that differs by whole turns makes no difference. -/
theorem C98_turns (m a b : ℚ) (db : Bool) (n : ℤ) (h : a = b + 360 * n) : complexValue ⟨m, db, a, true⟩ = complexValue ⟨m, db, b, true⟩ := by
  have e : Real.pi * (a : ℝ) / 180 = Real.pi * (b : ℝ) / 180 + n * (2 * Real.pi) := by
    rw [h]; push_cast; ring
  unfold complexValue
  simp only [Bool.true_eq_false, if_false]
  rw [e, Real.cos_add_int_mul_two_pi, Real.sin_add_int_mul_two_pi]

/-! ### The conversion -/

/-- C98: the conversion of a text: a whole number if it is one, else a number, else a complex number (that keeps its text), and otherwise the text
itself without the blanks around it. -/
theorem C98_convert (s : Str) :
    (∀ n, convert s = .int n ↔ Model.PyStr.parseInt s = some n) ∧
    (∀ q, convert s = .num q ↔ Model.PyStr.parseInt s = none ∧ toFloat s = some q) ∧
    (∀ p t, convert s = .cplx p t ↔ t = s ∧ Model.PyStr.parseInt s = none ∧ toFloat s = none ∧
      ∃ a b, Reads s a p.db b p.deg ∧ toFloat a = some p.mag ∧ toFloat b = some p.ph) ∧
    (∀ t, convert s = .text t ↔ t = Model.PyStr.strip s ∧ Model.PyStr.parseInt s = none ∧ toFloat s = none ∧
      ¬ ∃ a db b deg x y, Reads s a db b deg ∧ toFloat a = some x ∧ toFloat b = some y) := by
  have hp : ∀ p, parts s = some p ↔ ∃ a b, Reads s a p.db b p.deg ∧ toFloat a = some p.mag ∧ toFloat b = some p.ph := by
    intro p
    unfold parts
    constructor
    · intro h
      cases hf : fields s with
      | none => rw [hf] at h; cases h
      | some q =>
        obtain ⟨a, db, b, deg⟩ := q
        rw [hf] at h
        simp only at h
        cases ha : toFloat a with
        | none => rw [ha] at h; simp at h
        | some x =>
          cases hb : toFloat b with
          | none => rw [ha, hb] at h; simp at h
          | some y =>
            rw [ha, hb] at h
            injection h with h
            subst h
            exact ⟨a, b, (C98_form _ _ _ _ _).mp hf, ha, hb⟩
    · rintro ⟨a, b, hr, ha, hb⟩
      rw [(C98_form _ _ _ _ _).mpr hr]
      simp only
      rw [ha, hb]
  have hn : parts s = none ↔ ¬ ∃ a db b deg x y, Reads s a db b deg ∧ toFloat a = some x ∧ toFloat b = some y := by
    constructor
    · rintro h ⟨a, db, b, deg, x, y, hr, ha, hb⟩
      have := (hp ⟨x, db, y, deg⟩).mpr ⟨a, b, hr, ha, hb⟩
      rw [h] at this; cases this
    · intro h
      cases hq : parts s with
      | none => rfl
      | some p =>
        obtain ⟨a, b, hr, ha, hb⟩ := (hp p).mp hq
        exact absurd ⟨a, p.db, b, p.deg, p.mag, p.ph, hr, ha, hb⟩ h
  simp only [← hp, ← hn]
  unfold convert
  cases h1 : Model.PyStr.parseInt s with
  | some n => simp
  | none =>
    simp only
    cases h2 : toFloat s with
    | some q => simp
    | none =>
      simp only
      cases h3 : parts s with
      | some p =>
        simp only [reduceCtorEq, Val.cplx.injEq, and_true, true_and, Option.some.injEq, false_iff, iff_false, not_false_eq_true, implies_true, false_and, and_false]
        intro p' t; exact ⟨fun h => ⟨h.2.symm, h.1⟩, fun h => ⟨h.2, h.1.symm⟩⟩
      | none =>
        simp only [reduceCtorEq, Val.text.injEq, and_true, true_and, false_iff, iff_false, not_false_eq_true, implies_true, and_false]
        intro t; exact eq_comm

/-- C98: every whole number is read back from its text. -/
theorem C98_int (n : ℤ) : convert (Model.PyStr.showInt n) = .int n := (C98_convert _).1 n |>.mpr (Lemmas.PyStr.parseInt_show n)

/-- C98: the unit of a complex number: dB if it says so. -/
theorem C98_unit (s mag ph : Str) (db deg : Bool) (h : Reads s mag db ph deg) : unit s = if db then some "dB".toList else none := by
  obtain ⟨⟨rest, e⟩, h1, h2, h3, h4⟩ := h
  subst e
  unfold unit
  rw [exec_reads mag ph rest db deg h1 h2 h3 h4]
  cases db <;> cases deg <;> rfl

/-! ### Samples and limits -/

/-- C98 sample. -/
theorem C98_sample :
    fields "(-6.0206dB,-45°)".toList = some ("-6.0206".toList, true, "-45".toList, true) ∧ fields "(0.5,0.25)".toList = some ("0.5".toList, false, "0.25".toList, false) ∧
    fields "(2,90°)".toList = some ("2".toList, false, "90".toList, true) ∧ fields "abc".toList = none ∧
    toFloat " -1.5e3 ".toList = some (-1500) ∧ Model.PyStr.parseInt "12".toList = some 12 := by
  refine ⟨?_, ?_, ?_, ?_, ?_, ?_⟩ <;> decide +kernel

/-- C98 sample: the hypotheses. -/
theorem C98_applies : Reads "(-6.0206dB,-45°) at 1k".toList "-6.0206".toList true "-45".toList true ∧
    ∃ p : Parts, parts "(-6.0206dB,-45°)".toList = some p ∧ p.deg = true ∧ p.db = true ∧ -180 < p.ph ∧ p.ph ≤ 180 := by
  refine ⟨(C98_form _ _ _ _ _).mp (by decide +kernel), ⟨-60206 / 10000, true, -45, true⟩, ?_, rfl, rfl, by norm_num, by norm_num⟩
  unfold parts
  have e1 : fields "(-6.0206dB,-45°)".toList = some ("-6.0206".toList, true, "-45".toList, true) := by decide +kernel
  have e2 : toFloat "-6.0206".toList = some (-60206 / 10000) := by decide +kernel
  have e3 : toFloat "-45".toList = some (-45) := by decide +kernel
  rw [e1]
  simp only
  rw [e2, e3]

/-- C98 limits: a magnitude in dB with a phase that is not in degrees is taken as real and imaginary part; what follows the parenthesis is lost; a blank
before the parenthesis makes it a text; a negative magnitude is a positive one half a turn away. -/
theorem C98_limits : fields "(3dB,4)".toList = some ("3".toList, true, "4".toList, false) ∧ complexValue ⟨3, true, 4, false⟩ = ⟨3, 4⟩ ∧
    fields "(1,2)*5".toList = some ("1".toList, false, "2".toList, false) ∧ fields " (1,2)".toList = none ∧
    mag (complexValue ⟨-2, false, 0, true⟩) = 2 := by
  refine ⟨by decide +kernel, ?_, by decide +kernel, by decide +kernel, ?_⟩
  · unfold complexValue; rw [if_pos rfl]; norm_num
  · unfold complexValue mag
    rw [if_neg (by decide)]
    simp only
    rw [if_neg (by decide)]
    have : (⟨((-2 : ℚ) : ℝ) * Real.cos (Real.pi * ((0 : ℚ) : ℝ) / 180), ((-2 : ℚ) : ℝ) * Real.sin (Real.pi * ((0 : ℚ) : ℝ) / 180)⟩ : ℂ) = ((-2 : ℝ) : ℂ) := by
      apply Complex.ext <;> simp
    rw [this, Complex.norm_real]
    norm_num

end Props.Values
