/-
The Python string methods that the modelled code uses, on strings as lists of characters. This file models the Python
standard library, not a file of /repo; the places that use each function are cited where it is used.

Simplification: lower(), upper() and title() change ASCII letters only.
-/
namespace Model.PyStr

/-- `str.isspace()` of one character: the Unicode white space characters known to Python. -/
def isSpace (c : Char) : Bool :=
  let n := c.toNat
  (9 ≤ n && n ≤ 13) || (28 ≤ n && n ≤ 32) || n = 0x85 || n = 0xA0 || n = 0x1680 || (0x2000 ≤ n && n ≤ 0x200A) ||
  n = 0x2028 || n = 0x2029 || n = 0x202F || n = 0x205F || n = 0x3000

/-- `s.lstrip()` -/
def lstrip (s : List Char) : List Char := s.dropWhile isSpace
/-- `s.rstrip()` -/
def rstrip (s : List Char) : List Char := (s.reverse.dropWhile isSpace).reverse
/-- `s.strip()` -/
def strip (s : List Char) : List Char := rstrip (lstrip s)
/-- `s.rstrip(c)` for one character -/
def rstripChar (c : Char) (s : List Char) : List Char := (s.reverse.dropWhile (· = c)).reverse

/-- `s.lower()` (ASCII) -/
def lower (s : List Char) : List Char := s.map Char.toLower
/-- `s.upper()` (ASCII) -/
def upper (s : List Char) : List Char := s.map Char.toUpper

/-- `s.title()` (ASCII); `prev` says whether the previous character was a letter. -/
def titleFrom : Bool → List Char → List Char
  | _, [] => []
  | prev, c :: cs => (if prev then c.toLower else c.toUpper) :: titleFrom c.isAlpha cs
def title (s : List Char) : List Char := titleFrom false s

/-- `pat in s` -/
def contains (pat : List Char) : List Char → Bool
  | [] => pat.isEmpty
  | c :: cs => pat.isPrefixOf (c :: cs) || contains pat cs

/-- `s.partition(sep)` for a one-character separator, without the separator itself. -/
def partition (sep : Char) : List Char → List Char × List Char
  | [] => ([], [])
  | c :: cs => if c = sep then ([], cs) else let (a, b) := partition sep cs; (c :: a, b)

/-- `s.split(sep)` for a one-character separator. -/
def splitOn (sep : Char) : List Char → List (List Char)
  | [] => [[]]
  | c :: cs =>
    if c = sep then [] :: splitOn sep cs
    else match splitOn sep cs with
      | [] => [[c]]
      | w :: ws => (c :: w) :: ws

/-- `str(n)` of a natural number. -/
def showNat (n : Nat) : List Char := Nat.toDigits 10 n

/-- `int(s, 10)` of a string of decimal digits surrounded by white space. Signs and underscores are not modelled
(`none`). -/
def parseNat (s : List Char) : Option Nat :=
  let t := strip s
  if t ≠ [] ∧ t.all Char.isDigit then some (Nat.ofDigitChars 10 t 0) else none

/-- `str(n)` of an integer -/
def showInt : Int → List Char
  | .ofNat n => showNat n
  | .negSucc n => '-' :: showNat (n + 1)

/-- `int(s)` for an optional sign and decimal digits, blanks around allowed; underscores are not modelled. -/
def parseInt (s : List Char) : Option Int :=
  let t := strip s
  match t with
  | '-' :: d => if d ≠ [] ∧ d.all Char.isDigit then some (- (Nat.ofDigitChars 10 d 0 : Int)) else none
  | '+' :: d => if d ≠ [] ∧ d.all Char.isDigit then some (Nat.ofDigitChars 10 d 0 : Int) else none
  | d => if d ≠ [] ∧ d.all Char.isDigit then some (Nat.ofDigitChars 10 d 0 : Int) else none

end Model.PyStr
