import Mathlib.Data.Int.Log
import Mathlib.Data.Rat.Floor
import Verif.Model.PyStr
/-
spicelib/utils/float_unit.py: numbers in engineering notation, read (parse_value / scan_eng) and written (format_eng), and the text of
a float_unit.

Simplifications: floating point numbers are exact rationals (the product with the multiplier and the scaling by powers of 1000 are not
rounded); the conversion of an integral float to int makes no difference to the value; letter case is ASCII. parse_value is modelled
with accept_invalid=False, the only way it is called.
-/
namespace Model.FloatUnit
open Model.PyStr

abbrev Str := List Char

/-! ### Reading -/

/-- `value[i] in "0123456789.+-"` (float_unit.py 51) -/
def isNumChar (c : Char) : Bool := c.isDigit || c == '.' || c == '+' || c == '-'
/-- `value[i] in "0123456789E+-"` (59) -/
def isExpChar (c : Char) : Bool := c.isDigit || c == 'E' || c == '+' || c == '-'
/-- `value[i] in " \t"` (66, 89) -/
def isBlank (c : Char) : Bool := c == ' ' || c == '\t'

/-- _MULT (float_unit.py 221-240) -/
def mult (c : Char) : Option ℚ :=
  if c = 'f' then some (10 ^ (-15 : ℤ))
  else if c = 'p' then some (10 ^ (-12 : ℤ))
  else if c = 'P' then some (10 ^ (-12 : ℤ))
  else if c = 'n' then some (10 ^ (-9 : ℤ))
  else if c = 'N' then some (10 ^ (-9 : ℤ))
  else if c = 'u' then some (10 ^ (-6 : ℤ))
  else if c = 'µ' then some (10 ^ (-6 : ℤ))
  else if c = 'μ' then some (10 ^ (-6 : ℤ))
  else if c = 'U' then some (10 ^ (-6 : ℤ))
  else if c = 'm' then some (10 ^ (-3 : ℤ))
  else if c = 'k' then some (10 ^ (3 : ℤ))
  else if c = 'K' then some (10 ^ (3 : ℤ))
  else if c = 'M' then some (10 ^ (6 : ℤ))
  else if c = 'G' then some (10 ^ (9 : ℤ))
  else if c = 'g' then some (10 ^ (9 : ℤ))
  else if c = 'T' then some (10 ^ (12 : ℤ))
  else if c = 't' then some (10 ^ (12 : ℤ))
  else if c = '%' then some (10 ^ (-2 : ℤ))
  else none

/-- The unsigned part of `float(s)` before an exponent: digits with at most one point and at least one digit. (Python library.) -/
def mantissa (s : Str) : Option ℚ :=
  match s.dropWhile Char.isDigit with
  | [] => if s.takeWhile Char.isDigit = [] then none else some (Nat.ofDigitChars 10 (s.takeWhile Char.isDigit) 0)
  | c :: fp =>
    if c = '.' ∧ fp.all Char.isDigit = true ∧ ¬ (s.takeWhile Char.isDigit = [] ∧ fp = []) then
      some (Nat.ofDigitChars 10 (s.takeWhile Char.isDigit) 0 + Nat.ofDigitChars 10 fp 0 / 10 ^ fp.length)
    else none

/-- A sign and the rest. -/
def signed : Str → ℤ × Str
  | '-' :: t => (-1, t)
  | '+' :: t => (1, t)
  | t => (1, t)

/-- The exponent in `float(s)`: an optional sign and at least one digit. (Python library.) -/
def exponent (s : Str) : Option ℤ :=
  let t := signed s
  if t.2 ≠ [] ∧ t.2.all Char.isDigit = true then some (t.1 * (Nat.ofDigitChars 10 t.2 0 : ℤ)) else none

/-- `float(s)` for the texts parse_value hands over (digits, points, signs and the letter E only). (Python library.) -/
def pyFloat (s : Str) : Option ℚ :=
  let t := signed s
  match t.2.dropWhile (fun c => c.toUpper ≠ 'E') with
  | [] => (mantissa t.2).map (fun m => t.1 * m)
  | _ :: e => (mantissa (t.2.takeWhile (fun c => c.toUpper ≠ 'E'))).bind (fun m => (exponent e).map (fun k => t.1 * m * 10 ^ k))

/-- From the optional digits behind the multiplier to the end (float_unit.py 81-102): `n` is the text of the number, `m` the multiplier,
`t` what is left and `u` the unit known so far. -/
def finish (n : Str) (m : ℚ) (t u : Str) : Option (ℚ × Str) :=
  let d := t.takeWhile Char.isDigit
  let rest := (t.dropWhile Char.isDigit).dropWhile isBlank
  (pyFloat (if d = [] then n else n ++ '.' :: d)).map (fun x => (x * m, if rest = [] then u else rest))

/-- What stands behind the number (float_unit.py 63-80). -/
def scanSuffix (n r : Str) : Option (ℚ × Str) :=
  match r.dropWhile isBlank with
  | [] => finish n 1 [] []
  | c :: t =>
    match mult c with
    | some m => finish n m (if (upper (c :: t)).take 3 = ['M', 'E', 'G'] then t.drop 2 else t) []
    | none => if c.toUpper = 'R' then finish n 1 t ['Ω'] else finish n 1 (c :: t) []

/-- parse_value (float_unit.py 38-107): value and unit; none when ValueError is raised. -/
def parse (s : Str) : Option (ℚ × Str) :=
  let v := strip s
  let n := v.takeWhile isNumChar
  if n = [] then none
  else match v.dropWhile isNumChar with
    | [] => scanSuffix n []
    | c :: t =>
      if c.toUpper = 'E' then
        (pyFloat (n ++ c :: t.takeWhile isExpChar)).map (fun x => (x, (t.dropWhile isExpChar).dropWhile isBlank))
      else scanSuffix n (c :: t)

/-- scan_eng (float_unit.py 110-117) -/
def scanEng (s : Str) : Option ℚ := (parse s).map Prod.fst

/-! ### Writing -/

/-- Rounding to the nearest integer, halves to the even one. (Python library.) -/
def roundEven (q : ℚ) : ℤ :=
  if q - ⌊q⌋ < 1 / 2 then ⌊q⌋ else if 1 / 2 < q - ⌊q⌋ then ⌊q⌋ + 1 else if ⌊q⌋ % 2 = 0 then ⌊q⌋ else ⌊q⌋ + 1

/-- The digits (as one number of `p + 1` digits) and the decimal exponent of a positive number, rounded. (Python library.) -/
def sci (p : ℕ) (q : ℚ) : ℕ × ℤ :=
  let k := Int.log 10 q
  let m := (roundEven (q / 10 ^ (k - p))).toNat
  if m = 10 ^ (p + 1) then (10 ^ p, k + 1) else (m, k)

/-- A point and digits, or nothing. -/
def frac (s : Str) : Str := if s = [] then [] else '.' :: s

/-- Exponents have at least two digits. (Python library.) -/
def expText (e : Char) (k : ℤ) : Str :=
  e :: (if k < 0 then '-' else '+') :: (if k.natAbs < 10 then '0' :: showNat k.natAbs else showNat k.natAbs)

/-- `f"{x:g}"` of a positive number. (Python library.) -/
def fmtGpos (q : ℚ) : Str :=
  let r := sci 5 q
  let d := showNat r.1
  if 0 ≤ r.2 ∧ r.2 < 6 then d.take (r.2.toNat + 1) ++ frac (rstripChar '0' (d.drop (r.2.toNat + 1)))
  else if -4 ≤ r.2 ∧ r.2 < 0 then '0' :: frac (rstripChar '0' (List.replicate ((-r.2).toNat - 1) '0' ++ d))
  else d.take 1 ++ frac (rstripChar '0' (d.drop 1)) ++ expText 'e' r.2
/-- `f"{x:g}"` -/
def fmtG (q : ℚ) : Str := if q = 0 then ['0'] else if q < 0 then '-' :: fmtGpos (-q) else fmtGpos q

/-- `f"{x:E}"` -/
def fmtEpos (q : ℚ) : Str :=
  let r := sci 6 q
  let d := showNat r.1
  d.take 1 ++ '.' :: d.drop 1 ++ expText 'E' r.2
def fmtE (q : ℚ) : Str := if q < 0 then '-' :: fmtEpos (-q) else fmtEpos q

/-- The suffix (float_unit.py 19-33) -/
def suffix (e : ℤ) : Option Str :=
  if e = -1 then some ['m'] else if e = -2 then some ['u'] else if e = -3 then some ['n'] else if e = -4 then some ['p']
  else if e = -5 then some ['f'] else if e = 1 then some ['k'] else if e = 2 then some ['M', 'e', 'g'] else if e = 3 then some ['g']
  else if e = 4 then some ['t'] else none

/-- format_eng (float_unit.py 8-35). `lg` is what math.floor(math.log(abs(value), 1000)) gives. -/
def formatEng (lg : ℚ → ℤ) (q : ℚ) : Str :=
  if q = 0 then fmtG q
  else if lg q = 0 then fmtG q
  else match suffix (lg q) with
    | some s => fmtG (q * 1000 ^ (-(lg q))) ++ s
    | none => fmtE q

/-- The logarithm computed without error. -/
def exactLog (q : ℚ) : ℤ := Int.log 1000 |q|

/-- str() of a float_unit that was computed, not read (float_unit.py 314-320). -/
def strUnit (lg : ℚ → ℤ) (q : ℚ) (unit : Str) : Str := formatEng lg q ++ unit

end Model.FloatUnit
