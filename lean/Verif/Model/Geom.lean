import Mathlib.Data.Rat.Defs
import Mathlib.Algebra.Order.Ring.Rat
/-
Wires and points of schematics: spicelib/editor/base_schematic.py 150-209 (Point, Line.touches, Line.intercepts) and 380-409
(BaseSchematic.scale), and the places where point objects come from: asc_editor.py 333-444, qsch_editor.py 905-1032,
base_schematic.py 347-362 (set_component_position).

Coordinates are rational numbers (every float is one). `fl` is the rounding of the arithmetic: every result of an operation is
rounded by it; comparisons are exact. Exact arithmetic is `fl = id`.
-/
namespace Model.Geom

/-- class Point (base_schematic.py 152-156) -/
structure Pt where
  x : ℚ
  y : ℚ
  deriving DecidableEq

/-- class Line (base_schematic.py 159-169), its two ends. -/
structure Seg where
  v1 : Pt
  v2 : Pt
  deriving DecidableEq

/-- Line.touches (base_schematic.py 171-195) -/
def touches (fl : ℚ → ℚ) (l : Seg) (p : Pt) : Bool :=
  if l.v1.x = l.v2.x then
    if l.v1.x = p.x then decide (min l.v1.y l.v2.y ≤ p.y ∧ p.y ≤ max l.v1.y l.v2.y) else false
  else if l.v1.y = l.v2.y then
    if l.v1.y = p.y then decide (min l.v1.x l.v2.x ≤ p.x ∧ p.x ≤ max l.v1.x l.v2.x) else false
  else
    let m := fl (fl (l.v2.y - l.v1.y) / fl (l.v2.x - l.v1.x))
    let b := fl (l.v1.y - fl (m * l.v1.x))
    let y := fl (fl (m * p.x) + b)
    if y = p.y then decide (min l.v1.x l.v2.x ≤ p.x ∧ p.x ≤ max l.v1.x l.v2.x) else false

/-- Line.intercepts (base_schematic.py 197-207) -/
def intercepts (fl : ℚ → ℚ) (a b : Seg) : Bool :=
  touches fl a b.v1 || touches fl a b.v2 || touches fl b a.v1 || touches fl b a.v2

/-! ### Rounding to double precision

Not part of spicelib: what the floating point operations of Python compute on normal numbers (IEEE 754 binary64, round to
nearest, ties to even). Overflow and subnormal numbers are left out. -/

/-- The nearest integer of a non negative fraction, ties to even. -/
def nearest (n d : Nat) : Nat :=
  let q := n / d
  let r := n % d
  if 2 * r < d then q else if d < 2 * r then q + 1 else if q % 2 = 0 then q else q + 1

/-- The exponent e with 2^e ≤ n/d < 2^(e+1), for n, d > 0. -/
def exponent (n d : Nat) : Int :=
  let e : Int := (Nat.log2 n : Int) - (Nat.log2 d : Int)
  -- 2^(e-1) < n/d < 2^(e+1)
  let ge := if 0 ≤ e then decide (d * 2 ^ e.toNat ≤ n) else decide (d ≤ n * 2 ^ (-e).toNat)
  if ge then e else e - 1

def binary64 (q : ℚ) : ℚ :=
  if q = 0 then 0
  else
    let n := q.num.natAbs
    let d := q.den
    let s : Int := 52 - exponent n d          -- n/d * 2^s has 53 bits
    let m := if 0 ≤ s then nearest (n * 2 ^ s.toNat) d else nearest n (d * 2 ^ (-s).toNat)
    let a : ℚ := if 0 ≤ s then mkRat m (2 ^ s.toNat) else ((m * 2 ^ (-s).toNat : Nat) : ℚ)
    if q.num < 0 then -a else a

/-! ### Scaling -/

/-- The point objects of a schematic: a component's position, the two ends of a wire or line, the coordinate of a label,
directive or port, the points of a shape. Points are objects: they are given by their number, so that two things can hold the
same point. `heap` has the coordinates. -/
structure Sch where
  heap : Nat → Pt
  fresh : Nat
  comps : List Nat := []
  wires : List (Nat × Nat) := []
  labels : List Nat := []
  directives : List Nat := []
  ports : List Nat := []
  lines : List (Nat × Nat) := []
  shapes : List (List Nat) := []

/-- The points in the order in which scale goes through them (base_schematic.py 385-407). -/
def visits (s : Sch) : List Nat :=
  s.comps ++ s.wires.flatMap (fun w => [w.1, w.2]) ++ s.labels ++ s.directives ++ s.ports ++
  s.lines.flatMap (fun w => [w.1, w.2]) ++ s.shapes.flatten

/-- The arguments of scale (380-384). -/
structure Scaling where
  ox : ℚ
  oy : ℚ
  sx : ℚ
  sy : ℚ
  round : ℚ → ℚ

/-- What happens to one point (386-387); the products and sums are rounded by `fl`. -/
def move (fl : ℚ → ℚ) (k : Scaling) (p : Pt) : Pt :=
  ⟨k.round (fl (fl (p.x * k.sx) + k.ox)), k.round (fl (fl (p.y * k.sy) + k.oy))⟩

def moveAt (fl : ℚ → ℚ) (k : Scaling) (heap : Nat → Pt) (a : Nat) : Nat → Pt := fun i => if i = a then move fl k (heap a) else heap i

/-- BaseSchematic.scale (380-409) -/
def scale (fl : ℚ → ℚ) (k : Scaling) (s : Sch) : Sch := { s with heap := (visits s).foldl (moveAt fl k) s.heap }

/-- The default round_fun, int (384): towards zero. -/
def truncate (q : ℚ) : ℚ := if 0 ≤ q then (q.floor : ℚ) else (q.ceil : ℚ)

/-! ### Where the points come from -/

/-- What a line of an ASC file, an item of a QSCH file or a call adds to a schematic. -/
inductive Add where
  | comp (p : Pt)
  | wire (p q : Pt)
  | label (p : Pt)
  | directive (p : Pt)
  | iopin                       -- asc_editor.py 406-411: the port holds the Text object of the last label
  | line (p q : Pt)
  | shape (ps : List Pt)
  | place (a : Nat)             -- add_component / set_component_position with a Point object in use already

def alloc (s : Sch) (p : Pt) : Sch := { s with heap := fun i => if i = s.fresh then p else s.heap i, fresh := s.fresh + 1 }

def allocAll (s : Sch) : List Pt → Sch × List Nat
  | [] => (s, [])
  | p :: ps => let r := allocAll (alloc s p) ps; (r.1, s.fresh :: r.2)

/-- asc_editor.py 345, 377, 391-393, 397-399, 406-411, 425-432, 436-444; qsch_editor.py 913-915, 928-930, 1021, 1032. -/
def add (s : Sch) : Add → Sch
  | .comp p => let s' := alloc s p; { s' with comps := s.comps ++ [s.fresh] }
  | .wire p q => let s' := alloc (alloc s p) q; { s' with wires := s.wires ++ [(s.fresh, s.fresh + 1)] }
  | .label p => let s' := alloc s p; { s' with labels := s.labels ++ [s.fresh] }
  | .directive p => let s' := alloc s p; { s' with directives := s.directives ++ [s.fresh] }
  | .iopin => match s.labels.getLast? with
    | some a => { s with ports := s.ports ++ [a] }
    | none => s
  | .line p q => let s' := alloc (alloc s p) q; { s' with lines := s.lines ++ [(s.fresh, s.fresh + 1)] }
  | .shape ps => let r := allocAll s ps; { r.1 with shapes := s.shapes ++ [r.2] }
  | .place a => { s with comps := s.comps ++ [a] }

def empty : Sch := { heap := fun _ => ⟨0, 0⟩, fresh := 0 }
def build (l : List Add) : Sch := l.foldl add empty

end Model.Geom
