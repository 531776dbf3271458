import Mathlib.Analysis.SpecialFunctions.Complex.Arg
import Mathlib.Analysis.SpecialFunctions.Log.Base
import Verif.Model.CompLine
import Verif.Model.FloatUnit
import Verif.Model.Export
/-
Values in log files: LTComplex and try_convert_value (spicelib/log/logfile_data.py 22-101).

Simplifications: floating point numbers are exact (rational when read, real after 10 ** x, cos and sin); `float(s)` accepts decimal numbers with an
optional exponent, blanks around allowed (not `inf`, `nan` or underscores); a power that overflows is not modelled.
-/
namespace Model.Values
open Model.PyStr
open Model.Regex
open Model.CompLine (lit dot)
open Model.Export (lits)

/-- complex_match (26); the groups mag, dB, ph, degrees are called value, formula1, number, formula2 here. -/
def complexRe : Re :=
  .seq (lit '(') (.seq (.grp .value (.lazy dot)) (.seq (opt (.grp .formula1 (lits "dB".toList .nil))) (.seq (lit ',')
    (.seq (.grp .number (.lazy dot)) (.seq (opt (.grp .formula2 (lits "°".toList .nil))) (.seq (lit ')') .nil))))))

/-- `float(s)` -/
def toFloat (s : Str) : Option ℚ := Model.FloatUnit.pyFloat (strip s)

/-- What LTComplex reads from the text: the two numbers, and whether the groups dB and degrees took part. -/
structure Parts where
  mag : ℚ
  db : Bool
  ph : ℚ
  deg : Bool

def groupText (m : St) (g : G) : Str := ((m.get g).map Prod.snd).getD []

/-- 30: the groups. -/
def fields (s : Str) : Option (Str × Bool × Str × Bool) :=
  (exec complexRe s).map (fun m => (groupText m .value, (m.get .formula1).isSome, groupText m .number, (m.get .formula2).isSome))

/-- 29-33; none is a ValueError. -/
def parts (s : Str) : Option Parts :=
  match fields s with
  | none => none
  | some (a, db, b, deg) =>
    match toFloat a, toFloat b with
    | some x, some y => some ⟨x, db, y, deg⟩
    | _, _ => none

/-- 34-41 -/
noncomputable def complexValue (p : Parts) : ℂ :=
  if p.deg = false then ⟨(p.mag : ℝ), (p.ph : ℝ)⟩
  else
    let mag : ℝ := if p.db = true then (10 : ℝ) ^ ((p.mag : ℝ) / 20) else (p.mag : ℝ)
    ⟨mag * Real.cos (Real.pi * (p.ph : ℝ) / 180), mag * Real.sin (Real.pi * (p.ph : ℝ) / 180)⟩

/-- 50-53, `mag` -/
noncomputable def mag (z : ℂ) : ℝ := ‖z‖
/-- 55-58, `ph`: atan2(imag, real) is the argument. -/
noncomputable def ph (z : ℂ) : ℝ := Complex.arg z * 180 / Real.pi
/-- 60-62 -/
noncomputable def magDb (z : ℂ) : ℝ := 20 * Real.logb 10 (mag z)

/-- 67-73, `unit`: none or "dB" -/
def unit (s : Str) : Option Str := (exec complexRe s).bind (fun m => (m.get .formula1).map Prod.snd)

/-- A value: whole number, number, complex number with its text (44-48), text. -/
inductive Val where
  | int (n : ℤ)
  | num (q : ℚ)
  | cplx (p : Parts) (text : Str)
  | text (s : Str)

/-- 76-101 for a text. -/
def convert (s : Str) : Val :=
  match parseInt s with
  | some n => .int n
  | none =>
    match toFloat s with
    | some q => .num q
    | none =>
      match parts s with
      | some p => .cplx p s
      | none => .text (strip s)

end Model.Values
