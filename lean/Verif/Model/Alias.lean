import Verif.Model.FloatUnit
import Mathlib.Algebra.Order.Field.Rat
/-
Aliases in QSPICE RAW files: spicelib/raw/plot_data.py 51-59 (namify), 195-206 (reading .param and .alias lines of the header), 541-550
(get_trace_names) and 552-584 (_compute_alias).

Simplifications: the word characters of regular expressions and identifiers are the ASCII letters, digits and the underscore; numbers are exact
rationals (floating point is not rounded). The five regular expressions have no two ways to match at a place, so they are written as functions.
Python's eval is modelled for numbers, names, `+`, `-`, `*` and parentheses; any other text is `none` here, as is an error.
-/
namespace Model.Alias
open Model.PyStr

abbrev Str := List Char

/-- `\w` -/
def isWord (c : Char) : Bool := c.isAlphanum || c == '_'

/-! ### The header -/

/-- `line.split(' ', 3)` unpacked into three (plot_data.py 205): `.alias`, the name and the formula. None: ValueError. -/
def aliasLine (line : Str) : Option (Str × Str) :=
  match splitOn ' ' line with
  | [_, a, f] => some (strip a, strip f)
  | _ => none

/-! ### Substitutions -/

/-- `re.sub`: at every place `try` gives the replacement and the length of the match, if there is one. `skip`: characters that belong to the last match. -/
def sub (attempt : Str → Option (Str × Nat)) : Nat → Str → Str
  | _, [] => []
  | skip + 1, _ :: s => sub attempt skip s
  | 0, c :: s =>
    match attempt (c :: s) with
    | some (r, n) => r ++ sub attempt (n - 1) s
    | none => c :: sub attempt 0 s

/-- `(\w+)` greedy: the word and what follows. -/
def word (s : Str) : Str × Str := (s.takeWhile isWord, s.dropWhile isWord)

/-- `V\((\w+),0\)` → `V(\1)` (559) -/
def try1 (s : Str) : Option (Str × Nat) :=
  match s with
  | 'V' :: '(' :: r =>
    let a := (word r).1
    if a = [] then none else
    match (word r).2 with
    | ',' :: '0' :: ')' :: _ => some ("V(".toList ++ a ++ [')'], 2 + a.length + 3)
    | _ => none
  | _ => none

/-- `V\(0,(\w+)\)` → `(-V(\1))` (560) -/
def try2 (s : Str) : Option (Str × Nat) :=
  match s with
  | 'V' :: '(' :: '0' :: ',' :: r =>
    let b := (word r).1
    if b = [] then none else
    match (word r).2 with
    | ')' :: _ => some ("(-V(".toList ++ b ++ "))".toList, 4 + b.length + 1)
    | _ => none
  | _ => none

/-- `V\((\w+),(\w+)\)` → `(V(\1)-V(\2))` (561) -/
def try3 (s : Str) : Option (Str × Nat) :=
  match s with
  | 'V' :: '(' :: r =>
    let a := (word r).1
    if a = [] then none else
    match (word r).2 with
    | ',' :: r2 =>
      let b := (word r2).1
      if b = [] then none else
      match (word r2).2 with
      | ')' :: _ => some ("(V(".toList ++ a ++ ")-V(".toList ++ b ++ "))".toList, 2 + a.length + 1 + b.length + 1)
      | _ => none
    | _ => none
  | _ => none

/-- `([VIP])\((\w+)\)` → `\1__\2__` (565) -/
def try4 (s : Str) : Option (Str × Nat) :=
  match s with
  | c :: '(' :: r =>
    if c = 'V' ∨ c = 'I' ∨ c = 'P' then
      let a := (word r).1
      if a = [] then none else
      match (word r).2 with
      | ')' :: _ => some (c :: "__".toList ++ a ++ "__".toList, 2 + a.length + 1)
      | _ => none
    else none
  | _ => none

/-- `(\d+)((mho)|(ohm))` → `\1` (568) -/
def try5 (s : Str) : Option (Str × Nat) :=
  let d := s.takeWhile Char.isDigit
  if d = [] then none
  else if (s.dropWhile Char.isDigit).take 3 = "mho".toList ∨ (s.dropWhile Char.isDigit).take 3 = "ohm".toList then some (d, d.length + 3)
  else none

/-- 557-561: the formula with differences of voltages written out. -/
def expand (formula : Str) : Str := sub try3 0 (sub try2 0 (sub try1 0 formula))
/-- 565-568: the text that is evaluated. -/
def toPython (formula : Str) : Str := sub try5 0 (sub try4 0 formula)

/-- namify (plot_data.py 51-59): None: NotImplementedError. -/
def namify (name : Str) : Option Str :=
  if lower name = "time".toList ∨ lower name = "frequency".toList then some name
  else
    match name with
    | c :: '(' :: r =>
      if (c = 'V' ∨ c = 'I' ∨ c = 'P') ∧ (word r).1 ≠ [] then
        match (word r).2 with
        | ')' :: _ => some (c :: "__".toList ++ (word r).1 ++ "__".toList)
        | _ => none
      else none
    | _ => none

/-! ### eval -/

/-- A number or an array (numpy). -/
inductive Val where
  | num (q : ℚ)
  | vec (l : List ℚ)
  deriving DecidableEq, Repr

def arith (f : ℚ → ℚ → ℚ) : Val → Val → Option Val
  | .num a, .num b => some (.num (f a b))
  | .num a, .vec l => some (.vec (l.map (fun y => f a y)))
  | .vec l, .num b => some (.vec (l.map (fun x => f x b)))
  | .vec l, .vec m => if l.length = m.length then some (.vec (List.zipWith f l m)) else none

def negate : Val → Val
  | .num a => .num (-a)
  | .vec l => .vec (l.map (fun x => -x))

inductive Tok where
  | num (q : ℚ)
  | name (s : Str)
  | op (c : Char)
  deriving DecidableEq, Repr

/-- The text of a number: digits and points, and an exponent if a digit follows the letter and the sign. -/
def numberText (s : Str) : Str :=
  let m := s.takeWhile (fun c => c.isDigit || c == '.')
  match s.dropWhile (fun c => c.isDigit || c == '.') with
  | e :: r =>
    if e = 'e' ∨ e = 'E' then
      match r with
      | g :: t =>
        if g = '-' ∨ g = '+' then
          if t.takeWhile Char.isDigit = [] then m else m ++ e :: g :: t.takeWhile Char.isDigit
        else if r.takeWhile Char.isDigit = [] then m else m ++ e :: r.takeWhile Char.isDigit
      | [] => m
    else m
  | [] => m

/-- keyword.kwlist (Python library) -/
def keywords : List Str := ["False", "None", "True", "and", "as", "assert", "async", "await", "break", "class", "continue", "def", "del", "elif", "else", "except", "finally",
  "for", "from", "global", "if", "import", "in", "is", "lambda", "nonlocal", "not", "or", "pass", "raise", "return", "try", "while", "with", "yield"].map String.toList

/-- A token and its length. A number must not be followed by a letter, and a whole number other than 0 has no leading zeros. -/
def lexOne (s : Str) : Option (Tok × Nat) :=
  match s with
  | [] => none
  | c :: _ =>
    if c.isDigit || c == '.' then
      let t := numberText s
      if ((s.drop t.length).head?.map isWord).getD false then none
      else if t.all Char.isDigit && c == '0' && !(t.all (· == '0')) then none
      else (Model.FloatUnit.pyFloat t).map (fun q => (Tok.num q, t.length))
    else if isWord c then (if s.takeWhile isWord ∈ keywords then none else some (Tok.name (s.takeWhile isWord), (s.takeWhile isWord).length))
    else if c ∈ "+-*()".toList then some (Tok.op c, 1)
    else none

def tokenise : Nat → Str → Option (List Tok)
  | _, [] => some []
  | skip + 1, _ :: s => tokenise skip s
  | 0, c :: s =>
    match lexOne (c :: s) with
    | some (t, n) => (tokenise (n - 1) s).map (t :: ·)
    | none => none

section Parser
variable (atom : List Tok → Option (Val × List Tok))

def unary : Nat → List Tok → Option (Val × List Tok)
  | 0, _ => none
  | n + 1, .op '-' :: ts => (unary n ts).map (fun r => (negate r.1, r.2))
  | _ + 1, ts => atom ts

def prodLoop : Nat → Val → List Tok → Option (Val × List Tok)
  | n + 1, v, .op '*' :: ts => (unary atom (ts.length + 1) ts).bind (fun r => (arith (· * ·) v r.1).bind (fun w => prodLoop n w r.2))
  | _, v, ts => some (v, ts)

def product (ts : List Tok) : Option (Val × List Tok) :=
  (unary atom (ts.length + 1) ts).bind (fun r => prodLoop atom (ts.length + 1) r.1 r.2)

def sumLoop : Nat → Val → List Tok → Option (Val × List Tok)
  | n + 1, v, .op '+' :: ts => (product atom ts).bind (fun r => (arith (· + ·) v r.1).bind (fun w => sumLoop n w r.2))
  | n + 1, v, .op '-' :: ts => (product atom ts).bind (fun r => (arith (· - ·) v r.1).bind (fun w => sumLoop n w r.2))
  | _, v, ts => some (v, ts)

def expression (ts : List Tok) : Option (Val × List Tok) :=
  (product atom ts).bind (fun r => sumLoop atom (ts.length + 1) r.1 r.2)

end Parser

/-- A number, a name or an expression in parentheses. -/
def atomAt (env : Str → Option Val) : Nat → List Tok → Option (Val × List Tok)
  | 0, _ => none
  | _ + 1, .num q :: ts => some (.num q, ts)
  | _ + 1, .name x :: ts => (env x).map (fun v => (v, ts))
  | n + 1, .op '(' :: ts =>
    match expression (atomAt env n) ts with
    | some (v, .op ')' :: r) => some (v, r)
    | _ => none
  | _ + 1, _ => none

/-- `eval(text, env)` -/
def eval (env : Str → Option Val) (text : Str) : Option Val :=
  match tokenise 0 text with
  | some ts =>
    match expression (atomAt env (ts.length + 1)) ts with
    | some (v, []) => some v
    | _ => none
  | none => none

/-! ### _compute_alias -/

/-- A plot: its traces in the order of the file, the parameters and the aliases of the header. -/
structure Plot where
  traces : List (Str × List ℚ)
  params : List (Str × Str)
  aliases : List (Str × Str)

inductive Err where
  | notImplemented | value | runtime | key
  deriving DecidableEq, Repr

/-- `d[k]` of a dict filled in this order: the last entry counts. -/
def lookupLast {α : Type} (k : Str) : List (Str × α) → Option α
  | [] => none
  | (a, v) :: r => (lookupLast k r).or (if a = k then some v else none)

/-- `{namify(name): ...}` -/
def named : List (Str × List ℚ) → Except Err (List (Str × Val))
  | [] => .ok []
  | (n, d) :: r =>
    match namify n with
    | none => .error .notImplemented
    | some x =>
      match named r with
      | .ok l => .ok ((x, .vec d) :: l)
      | .error e => .error e

/-- `{name: scan_eng(value)}` (576) -/
def scanned : List (Str × Str) → Except Err (List (Str × Val))
  | [] => .ok []
  | (n, t) :: r =>
    match Model.FloatUnit.scanEng t with
    | none => .error .value
    | some q =>
      match scanned r with
      | .ok l => .ok ((n, .num q) :: l)
      | .error e => .error e

/-- 575 -/
def constants : List (Str × Val) := [("pi".toList, .num (31415926536 / 10000000000)), ("e".toList, .num (27182818285 / 10000000000))]

inductive Kind where
  | current | voltage
  deriving DecidableEq, Repr

/-- 569-574: the type of the trace. -/
def kindOf (ali : Str) : Option Kind :=
  if "I(".toList.isPrefixOf ali then some .current
  else if "V(".toList.isPrefixOf ali then some .voltage
  else none

/-- plot_data.py 552-584: the type and the data of the alias. -/
def compute (p : Plot) (ali : Str) : Except Err (Kind × Val) :=
  match lookupLast ali p.aliases with
  | none => .error .key
  | some formula =>
    let f := expand formula
    let used := p.traces.filter (fun t => contains t.1 f)                       -- 563
    match kindOf ali with
    | none => .error .notImplemented
    | some k =>
      match scanned p.params with
      | .error e => .error e
      | .ok ps =>
        match named used with
        | .error e => .error e
        | .ok ts =>
          match eval (fun x => lookupLast x (constants ++ ps ++ ts)) (toPython f) with   -- 575-581
          | some v => .ok (k, v)
          | none => .error .runtime

/-- get_trace_names (plot_data.py 541-550) -/
def traceNames (p : Plot) : List Str := p.traces.map Prod.fst ++ p.aliases.map Prod.fst

end Model.Alias
