import Mathlib.Algebra.Order.Field.Rat
import Verif.Spec.EngNumber
/-
Formulas of aliases as QSPICE writes them, and what they mean (specification for C85).
-/
namespace Spec.Alias

abbrev Str := List Char

inductive Op where
  | add | sub | mul
  deriving DecidableEq, Repr

def Op.char : Op → Char
  | .add => '+'
  | .sub => '-'
  | .mul => '*'

def Op.fn : Op → ℚ → ℚ → ℚ
  | .add => (· + ·)
  | .sub => (· - ·)
  | .mul => (· * ·)

/-- A formula. -/
inductive Expr where
  | num (text unit : Str) (q : ℚ)     -- 0.01mho, a number with its value
  | volt (a : Str)                    -- V(a)
  | diff (a b : Str)                  -- V(a,b)
  | cur (c : Char) (r : Str)          -- I(r), P(r)
  | name (x : Str)                    -- a parameter, or pi, or e
  | bin (op : Op) (l r : Expr)        -- (l*r)
  | neg (e : Expr)                    -- (-e)
  deriving DecidableEq, Repr

/-- How it is written. -/
def Expr.text : Expr → Str
  | .num t u _ => t ++ u
  | .volt a => 'V' :: '(' :: (a ++ [')'])
  | .diff a b => 'V' :: '(' :: (a ++ ',' :: (b ++ [')']))
  | .cur c r => c :: '(' :: (r ++ [')'])
  | .name x => x
  | .bin op l r => '(' :: (l.text ++ op.char :: (r.text ++ [')']))
  | .neg e => '(' :: '-' :: (e.text ++ [')'])

/-- What a formula refers to: at every point, the voltage of a net, the current (I) or power (P) of an element, and the value of a parameter. -/
structure World where
  voltage : Str → Option (Nat → ℚ)
  element : Char → Str → Option (Nat → ℚ)
  param : Str → Option ℚ

/-- The voltage of a net; net 0 is the ground. -/
def World.net (w : World) (a : Str) : Option (Nat → ℚ) := if a = ['0'] then some (fun _ => 0) else w.voltage a

/-- The value of a formula at every point; none when it refers to something that does not exist. -/
def Expr.value (w : World) : Expr → Option (Nat → ℚ)
  | .num _ _ q => some (fun _ => q)
  | .volt a => w.voltage a
  | .diff a b => (w.net a).bind (fun f => (w.net b).map (fun g i => f i - g i))
  | .cur c r => w.element c r
  | .name x => (w.param x).map (fun q _ => q)
  | .bin op l r => (l.value w).bind (fun f => (r.value w).map (fun g i => op.fn (f i) (g i)))
  | .neg e => (e.value w).map (fun f i => - f i)

/-- The formula refers to a trace. -/
def Expr.varies : Expr → Bool
  | .num _ _ _ => false
  | .name _ => false
  | .bin _ l r => l.varies || r.varies
  | .neg e => e.varies
  | _ => true

/-- A digit followed by the name of a unit. -/
def hasUnit : Str → Bool
  | [] => false
  | c :: s => (c.isDigit && ("mho".toList.isPrefixOf s || "ohm".toList.isPrefixOf s)) || hasUnit s

/-- A name of a net, element or parameter: letters, digits and underscores; no digit is followed by `mho` or `ohm`. -/
structure Name (a : Str) : Prop where
  ne : a ≠ []
  chars : ∀ c ∈ a, c.isAlphanum = true ∨ c = '_'
  unit : hasUnit a = false

/-- Numbers as Python reads them: a whole number other than 0 has no leading zeros, and an exponent may follow. -/
inductive Numeral : Str → ℚ → Prop
  | plain {t : Str} {q : ℚ} : Spec.EngNumber.Unsigned t q → (t.head? = some '0' → '.' ∈ t ∨ ∀ c ∈ t, c = '0') → Numeral t q
  | exp {t s d : Str} {q : ℚ} {g : ℤ} {c : Char} : Spec.EngNumber.Unsigned t q → c = 'e' ∨ c = 'E' →
      (s = [] ∧ g = 1) ∨ (s = ['+'] ∧ g = 1) ∨ (s = ['-'] ∧ g = -1) → Spec.EngNumber.Digits d → d ≠ [] →
      Numeral (t ++ c :: (s ++ d)) (q * 10 ^ (g * (Nat.ofDigitChars 10 d 0 : ℤ)))

/-- The words Python reserves. -/
def reserved : List Str := ["False", "None", "True", "and", "as", "assert", "async", "await", "break", "class", "continue", "def", "del", "elif", "else", "except", "finally",
  "for", "from", "global", "if", "import", "in", "is", "lambda", "nonlocal", "not", "or", "pass", "raise", "return", "try", "while", "with", "yield"].map String.toList

/-- A formula as QSPICE writes it. -/
inductive Ok : Expr → Prop
  | num {t u : Str} {q : ℚ} : Numeral t q → u = [] ∨ ((u = "mho".toList ∨ u = "ohm".toList) ∧ ∀ c, t.getLast? = some c → c.isDigit = true) → Ok (.num t u q)
  | volt {a : Str} : Name a → a ≠ ['0'] → Ok (.volt a)
  | diff {a b : Str} : Name a → Name b → ¬ (a = ['0'] ∧ b = ['0']) → Ok (.diff a b)
  | cur {c : Char} {r : Str} : c = 'I' ∨ c = 'P' → Name r → Ok (.cur c r)
  | name {x : Str} : Name x → (∀ c, x.head? = some c → c.isDigit = false) → (∀ y, x ≠ y ++ ['_', '_']) → x.map Char.toLower ≠ "time".toList →
      x.map Char.toLower ≠ "frequency".toList → x ∉ reserved → Ok (.name x)
  | bin {op : Op} {l r : Expr} : Ok l → Ok r → Ok (.bin op l r)
  | neg {e : Expr} : Ok e → Ok (.neg e)

/-- The name of a trace: the axis, or a voltage, current or power. -/
inductive TraceName : Str → Prop
  | axis {s : Str} : s.map Char.toLower = "time".toList ∨ s.map Char.toLower = "frequency".toList → TraceName s
  | ref {c : Char} {a : Str} : c = 'V' ∨ c = 'I' ∨ c = 'P' → a ≠ [] → (∀ x ∈ a, x.isAlphanum = true ∨ x = '_') → TraceName (c :: '(' :: (a ++ [')']))

/-- The samples of a waveform at n points. -/
def Samples (n : Nat) (l : List ℚ) (f : Nat → ℚ) : Prop := l.length = n ∧ ∀ i, i < n → l[i]? = some (f i)

/-- What the traces and parameters of a plot say: `number` is the value of the text of a parameter. -/
structure Describes (n : Nat) (number : Str → Option ℚ) (traces : List (Str × List ℚ)) (params : List (Str × Str)) (w : World) : Prop where
  voltage : ∀ a f, w.voltage a = some f → ∃ l, ('V' :: '(' :: (a ++ [')']), l) ∈ traces ∧ Samples n l f
  element : ∀ c a f, w.element c a = some f → ∃ l, (c :: '(' :: (a ++ [')']), l) ∈ traces ∧ Samples n l f
  param : ∀ x q, w.param x = some q → (∃ t, (x, t) ∈ params ∧ number t = some q) ∨
    ((∀ t, (x, t) ∉ params) ∧ ((x = "pi".toList ∧ q = 3.1415926536) ∨ (x = "e".toList ∧ q = 2.7182818285)))

end Spec.Alias
