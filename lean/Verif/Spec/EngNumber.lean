import Mathlib.Data.Rat.Defs
import Mathlib.Algebra.Order.Ring.Rat
/-
Numbers in engineering notation: what their texts mean.
-/
namespace Spec.EngNumber

abbrev Str := List Char

/-- Decimal digits only. -/
def Digits (s : Str) : Prop := ∀ c ∈ s, c.isDigit = true

/-- The number `ip.fp` -/
def decimal (ip fp : Str) : ℚ := Nat.ofDigitChars 10 ip 0 + Nat.ofDigitChars 10 fp 0 / 10 ^ fp.length

/-- Texts of decimal numbers without sign, and their values. -/
inductive Unsigned : Str → ℚ → Prop where
  | int (ip : Str) : Digits ip → ip ≠ [] → Unsigned ip (Nat.ofDigitChars 10 ip 0)
  | point (ip fp : Str) : Digits ip → Digits fp → ¬ (ip = [] ∧ fp = []) → Unsigned (ip ++ '.' :: fp) (decimal ip fp)

/-- Texts of decimal numbers, and their values. -/
inductive Number : Str → ℚ → Prop where
  | unsigned (s : Str) (x : ℚ) : Unsigned s x → Number s x
  | plus (s : Str) (x : ℚ) : Unsigned s x → Number ('+' :: s) x
  | minus (s : Str) (x : ℚ) : Unsigned s x → Number ('-' :: s) (-x)

/-- The power of ten of a multiplier. -/
def power (c : Char) : Option ℤ :=
  if c = 't' ∨ c = 'T' then some 12
  else if c = 'g' ∨ c = 'G' then some 9
  else if c = 'M' then some 6
  else if c = 'k' ∨ c = 'K' then some 3
  else if c = '%' then some (-2)
  else if c = 'm' then some (-3)
  else if c = 'u' ∨ c = 'U' ∨ c = 'µ' ∨ c = 'μ' then some (-6)
  else if c = 'n' ∨ c = 'N' then some (-9)
  else if c = 'p' ∨ c = 'P' then some (-12)
  else if c = 'f' then some (-15)
  else none

/-- Blanks between a number and what follows. -/
def Blanks (s : Str) : Prop := ∀ c ∈ s, c = ' ' ∨ c = '\t'

/-- A text that can stand directly behind a number or a multiplier as a unit: empty, or starting with a character that is neither a
digit, sign, point or blank, nor a multiplier, nor one of e E r R. -/
def UnitText (u : Str) : Prop :=
  ∀ c ∈ u.head?, c.isDigit = false ∧ power c = none ∧ c ≠ '.' ∧ c ≠ '+' ∧ c ≠ '-' ∧ c ≠ ' ' ∧ c ≠ '\t' ∧ c ≠ 'e' ∧ c ≠ 'E' ∧ c ≠ 'r' ∧ c ≠ 'R'

end Spec.EngNumber
