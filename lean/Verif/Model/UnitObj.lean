import Verif.Model.FloatUnit
/-
Objects of class float_unit (spicelib/utils/float_unit.py 279-394): creation, text, unit, arithmetic, comparison, to_float.

Objects have identity (clean() and the unit setter change them in place, to_float gives the same object back), so they live in a heap. Numbers are rational: the
rounding of binary floating point, infinities and NaN are not modelled, as in Model/FloatUnit. The other operand of arithmetic is a number or a float_unit, not a text.
-/
namespace Model.UnitObj
open Model.FloatUnit (parse formatEng)
open Model.PyStr (strip)

abbrev Str := List Char

/-- ValueError, RuntimeError("Unit missmatch"), KeyError, ZeroDivisionError -/
inductive Err
  | value | runtime | key | zero
  deriving DecidableEq, Repr

/-- A class of units (123-233): sign, one_name, many_name. -/
structure Unit where
  sign : Str
  one : Str
  many : Str
  deriving DecidableEq, Repr

def mk (sign one many : String) : Unit := ⟨sign.toList, one.toList, many.toList⟩

/-- The class Unit (123-126) -/
def noUnit : Unit := mk "" "" ""

/-- _UNITS (255-276) -/
def units : List (Str × Unit) :=
  [("R", mk "Ω" "Ohm" "Ohms"), ("Ω", mk "Ω" "Ohm" "Ohms"), ("V", mk "V" "Volt" "Volts"), ("A", mk "A" "Ampere" "Amperes"), ("F", mk "F" "Farad" "Farads"),
   ("H", mk "H" "Henry" "Henries"), ("W", mk "W" "Watt" "Watts"), ("C", mk "C" "Coulom" "Coulombs"), ("J", mk "J" "Joule" "Joules"),
   ("s", mk "s" "second" "seconds"), ("K", mk "K" "Kelvin" "Kelvins"), ("Hz", mk "Hz" "Hertz" "Hertz"), ("%", mk "%" "percent" "percent"),
   ("°C", mk "°C" "Celsius" "Celsius"), ("DEG", mk "°" "Degree" "Degrees"), ("RAD", mk "rad" "radians" "radians"), ("ARMS", mk "Vrms" "Vrms" "Vrms"),
   ("VRMS", mk "Vrms" "Vrms" "Vrms")].map (fun p => (p.1.toList, p.2))

/-- An object: its value as a float, `_original` and `_unit`. -/
structure Obj where
  value : ℚ
  original : Option Str
  unit : Unit

abbrev Heap := List Obj

/-- An argument: an object, a number or a text. -/
inductive Arg
  | obj (a : Nat)
  | num (q : ℚ)
  | text (s : Str)

/-- 296-299 -/
def unitOf (u : Str) : Unit := (units.lookup u).getD noUnit

/-- The float of an object or a number. -/
def number (h : Heap) : Arg → Option ℚ
  | .obj a => (h[a]?).map Obj.value
  | .num q => some q
  | .text _ => none

/-- 287-294 and 302-303: from a text. -/
def fromText (s unit : Str) : Except Err Obj :=
  match parse s with
  | none => .error .value
  | some (q, u0) =>
    if u0 ≠ [] then (if unit ≠ [] ∧ unit ≠ u0 then .error .runtime else .ok ⟨q, some (strip s), unitOf u0⟩)
    else .ok ⟨q, some (strip s), unitOf unit⟩

/-- __new__ and __init__ (284-304) -/
def make (h : Heap) (v : Arg) (unit : Str) : Except Err Obj :=
  match v with
  | .text s => fromText s unit
  | .num q => .ok ⟨q, none, unitOf unit⟩
  | .obj a => match h[a]? with
    | none => .error .key
    | some o => .ok ⟨o.value, none, unitOf unit⟩

/-- clean (306-309) -/
def clean (o : Obj) : Obj := { o with original := none }

/-- __str__ (311-317); `lg` as in Model/FloatUnit. -/
def text (lg : ℚ → ℤ) (o : Obj) : Str :=
  match o.original with
  | some (c :: r) => c :: r
  | _ => formatEng lg o.value ++ o.unit.sign

/-- The unit setter (338-349): the object afterwards and whether KeyError is raised. -/
def setUnit (o : Obj) (val : Str) : Obj × Bool :=
  match units.lookup val with
  | some u => ({ o with original := none, unit := u }, true)
  | none =>
    match units.find? (fun p => p.2.one = val || p.2.many = val) with
    | some p => ({ o with original := none, unit := p.2 }, true)
    | none => ({ o with original := none }, false)

/-- __add__, __sub__, __mul__, __truediv__ (352-362) -/
inductive Arith
  | add | sub | mul | div
  deriving DecidableEq

def compute (k : Arith) (x y : ℚ) : Except Err Obj :=
  match k with
  | .add => .ok ⟨x + y, none, noUnit⟩
  | .sub => .ok ⟨x - y, none, noUnit⟩
  | .mul => .ok ⟨x * y, none, noUnit⟩
  | .div => if y = 0 then .error .zero else .ok ⟨x / y, none, noUnit⟩

/-- __eq__ (364-370) -/
def equal (h : Heap) (o : Obj) : Arg → Bool
  | .text s => match make h (.text s) [] with
    | .ok p => decide (o.value = p.value)
    | .error _ => false
  | v => match number h v with
    | some q => decide (o.value = q)
    | none => false

/-- What an operation gives: an object (its address), a text, or an exception. -/
inductive Res
  | obj (a : Nat)
  | text (s : Str)
  | unit
  | error (e : Err)
  deriving DecidableEq, Repr

/-- A new object. -/
def alloc (h : Heap) : Except Err Obj → Heap × Res
  | .ok o => (h ++ [o], .obj h.length)
  | .error e => (h, .error e)

/-- to_float (376-394) -/
def toFloat (h : Heap) (v : Arg) (acceptInvalid : Bool) : Heap × Res :=
  match v with
  | .obj a => (h, .obj a)
  | .num q => alloc h (make h (.num q) [])
  | .text s =>
    match make h (.text s) [] with
    | .ok o => (h ++ [o], .obj h.length)
    | .error e => if acceptInvalid then (h, .text s) else (h, .error e)

inductive Op
  | make (v : Arg) (unit : Str)
  | clean (a : Nat)
  | setUnit (a : Nat) (u : Str)
  | arith (k : Arith) (a : Nat) (v : Arg)
  | toFloat (v : Arg) (acceptInvalid : Bool)

def step (h : Heap) : Op → Heap × Res
  | .make v u => alloc h (make h v u)
  | .clean a => match h[a]? with
    | none => (h, .error .key)
    | some o => (h.set a (clean o), .obj a)
  | .setUnit a u => match h[a]? with
    | none => (h, .error .key)
    | some o => (h.set a (setUnit o u).1, if (setUnit o u).2 then .unit else .error .key)
  | .arith k a v => match (h[a]?).map Obj.value, number h v with
    | some x, some y => alloc h (compute k x y)
    | _, _ => (h, .error .key)
  | .toFloat v b => toFloat h v b

def exec (h : Heap) (ops : List Op) : Heap := ops.foldl (fun h o => (step h o).1) h

end Model.UnitObj
