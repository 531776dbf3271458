import Mathlib.Algebra.Order.Field.Basic
import Mathlib.Algebra.Order.Ring.Rat
import Mathlib.Algebra.Field.Rat
/-! The functions a testbench defines, as a simulator reads them: `.func name(arguments) expression`. -/
namespace Spec.SpiceExpr
abbrev Str := List Char

inductive Tok where
  | num (n : Nat)
  | id (s : Str)
  | sym (c : Char)
  deriving DecidableEq

/-- A word is a number when it has digits only. -/
def word (s : Str) : List Tok :=
  if s = [] then [] else if s.all Char.isDigit then [.num (s.foldl (fun n c => 10 * n + (c.toNat - 48)) 0)] else [.id s]

def lexFrom : Str → Str → List Tok
  | w, [] => word w
  | w, c :: r =>
    if c.isAlphanum || c = '_' then lexFrom (w ++ [c]) r
    else word w ++ (if c = ' ' then [] else [.sym c]) ++ lexFrom [] r

def lex (s : Str) : List Tok := lexFrom [] s

inductive Expr where
  | num (q : ℚ)
  | var (x : Str)
  | add (a b : Expr)
  | sub (a b : Expr)
  | mul (a b : Expr)
  | div (a b : Expr)
  | lt (a b : Expr)
  | ite (c a b : Expr)
  | mc (a b : Expr)
  | flat (a : Expr)
  | gauss (a : Expr)
  | random
  deriving DecidableEq

/-- The operators of a level: comparison, sums, products. -/
def mkBin : Nat → Char → Option (Expr → Expr → Expr)
  | 0, '<' => some .lt
  | 1, '+' => some .add
  | 1, '-' => some .sub
  | 2, '*' => some .mul
  | 2, '/' => some .div
  | _, _ => none

/-- The functions of the simulators that are used here. -/
def mkCall (f : Str) (as : List Expr) : Option Expr :=
  match as with
  | [] => if f = "random".toList then some .random else none
  | [a] => if f = "flat".toList then some (.flat a) else if f = "gauss".toList then some (.gauss a) else none
  | [a, b] => if f = "mc".toList then some (.mc a b) else none
  | [a, b, c] => if f = "if".toList then some (.ite a b c) else none
  | _ => none

mutual
/-- An expression of a level, and what follows it; the first number bounds the work. -/
def parse : Nat → Nat → List Tok → Option (Expr × List Tok)
  | 0, _, _ => none
  | n + 1, 3, ts => match ts with
    | .num k :: r => some (.num k, r)
    | .sym '(' :: r => match parse n 0 r with
      | some (e, .sym ')' :: r') => some (e, r')
      | _ => none
    | .id f :: .sym '(' :: .sym ')' :: r => (mkCall f []).map (fun e => (e, r))
    | .id f :: .sym '(' :: r => match args n r with
      | some (as, r') => (mkCall f as).map (fun e => (e, r'))
      | none => none
    | .id f :: r => some (.var f, r)
    | _ => none
  | n + 1, l, ts => match parse n (l + 1) ts with
    | some (a, r) => more n l a r
    | none => none
/-- Further operands. -/
def more : Nat → Nat → Expr → List Tok → Option (Expr × List Tok)
  | 0, _, _, _ => none
  | n + 1, l, a, .sym c :: r =>
    match mkBin l c with
    | some op => match parse n (l + 1) r with
      | some (b, r') => more n l (op a b) r'
      | none => none
    | none => some (a, .sym c :: r)
  | _ + 1, _, a, ts => some (a, ts)
/-- Arguments up to the closing bracket. -/
def args : Nat → List Tok → Option (List Expr × List Tok)
  | 0, _ => none
  | n + 1, ts => match parse n 0 ts with
    | some (e, .sym ')' :: r) => some ([e], r)
    | some (e, .sym ',' :: r) => match args n r with
      | some (es, r') => some (e :: es, r')
      | none => none
    | _ => none
end

/-- The names between the brackets of a definition. -/
def formals : List Tok → Option (List Str × List Tok)
  | .id x :: .sym ')' :: r => some ([x], r)
  | .id x :: .sym ',' :: r => (formals r).map (fun p => (x :: p.1, p.2))
  | _ => none

/-- The expression, in braces or not, to the very end of the line. -/
def body (ts : List Tok) : Option Expr :=
  match ts with
  | .sym '{' :: r => match parse (4 * r.length + 4) 0 r with
    | some (e, [.sym '}']) => some e
    | _ => none
  | r => match parse (4 * r.length + 4) 0 r with
    | some (e, []) => some e
    | _ => none

/-- A line that defines a function: its name, its arguments and its expression. -/
def definition (line : Str) : Option (Str × List Str × Expr) :=
  match lex line with
  | .sym '.' :: .id kw :: .id f :: .sym '(' :: r =>
    if kw = "func".toList then match formals r with
      | some (xs, r') => (body r').map (fun e => (f, xs, e))
      | none => none
    else none
  | _ => none

/-- The values an expression can have: random functions may return anything in their range. -/
inductive Eval (env : Str → Option ℚ) : Expr → ℚ → Prop where
  | num (q : ℚ) : Eval env (.num q) q
  | var {x : Str} {q : ℚ} (h : env x = some q) : Eval env (.var x) q
  | add {a b : Expr} {x y : ℚ} (ha : Eval env a x) (hb : Eval env b y) : Eval env (.add a b) (x + y)
  | sub {a b : Expr} {x y : ℚ} (ha : Eval env a x) (hb : Eval env b y) : Eval env (.sub a b) (x - y)
  | mul {a b : Expr} {x y : ℚ} (ha : Eval env a x) (hb : Eval env b y) : Eval env (.mul a b) (x * y)
  | div {a b : Expr} {x y : ℚ} (ha : Eval env a x) (hb : Eval env b y) (h : y ≠ 0) : Eval env (.div a b) (x / y)
  | lt {a b : Expr} {x y : ℚ} (ha : Eval env a x) (hb : Eval env b y) : Eval env (.lt a b) (if x < y then 1 else 0)
  | yes {c a b : Expr} {z x : ℚ} (hc : Eval env c z) (hz : z ≠ 0) (ha : Eval env a x) : Eval env (.ite c a b) x
  | no {c a b : Expr} {x : ℚ} (hc : Eval env c 0) (hb : Eval env b x) : Eval env (.ite c a b) x
  | mc {a b : Expr} {x y : ℚ} (ha : Eval env a x) (hb : Eval env b y) (t : ℚ) (h1 : -1 ≤ t) (h2 : t ≤ 1) : Eval env (.mc a b) (x * (1 + y * t))
  | flat {a : Expr} {x : ℚ} (ha : Eval env a x) (t : ℚ) (h1 : -1 ≤ t) (h2 : t ≤ 1) : Eval env (.flat a) (x * t)
  | gauss {a : Expr} {x : ℚ} (ha : Eval env a x) (g : ℚ) : Eval env (.gauss a) (x * g)
  | random (t : ℚ) (h1 : 0 ≤ t) (h2 : t ≤ 1) : Eval env .random t

/-- The arguments of a call, and the number of the run. -/
def bind (xs : List Str) (vs : List ℚ) (run : ℚ) (x : Str) : Option ℚ :=
  match (xs.zip vs).lookup x with
  | some v => some v
  | none => if x = "run".toList then some run else none

/-- The values of a call of a function that one of the lines defines. -/
def Call (lines : List Str) (run : ℚ) (f : Str) (vs : List ℚ) (v : ℚ) : Prop :=
  ∃ xs e, (lines.filterMap definition).lookup f = some (xs, e) ∧ xs.length = vs.length ∧ Eval (bind xs vs run) e v

end Spec.SpiceExpr
