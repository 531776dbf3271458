import Mathlib.Data.Rat.Defs
import Mathlib.Algebra.Order.Field.Rat
/-
Model of spicelib/raw/raw_classes.py: Axis and TraceRead, the classes holding waveforms read from RAW files.

Simplifications: numpy arrays are lists. Real samples are exact rationals (floating point rounding is not modelled);
where only equality of samples matters the sample type is arbitrary (complex axes included). Step and point indices are
natural numbers: Python's negative indices are not modelled. NaN samples (not equal to themselves) are excluded.
-/
namespace Model.RawClasses

/-- Exceptions raised by these classes. -/
inductive Err where
  | index | spiceRead | type | assertion
  deriving DecidableEq, Repr

/-- The Axis object (raw_classes.py 78-95) after construction and, for stepped data, after set_steps.
`isTime` is `self.name == 'time'`; `offsets` is step_offsets, `none` when step_info is None. -/
structure Axis (α : Type) where
  isTime : Bool
  data : List α
  offsets : Option (List Nat)
  deriving DecidableEq, Repr

/-- raw_classes.py 105-113: the loop of set_steps from position `i`; `offs` are the `k` slots filled so far. Writing slot
`k ≥ len(step_info)` is an IndexError; too few starts is the SpiceReadException of line 112. -/
def scan {α : Type} [DecidableEq α] (n : Nat) (d0 : α) : List α → Nat → List Nat → Except Err (List Nat)
  | [], _, offs => if offs.length ≠ n then .error .spiceRead else .ok offs
  | x :: xs, i, offs =>
    if x = d0 then
      if offs.length < n then scan n d0 xs (i + 1) (offs ++ [i]) else .error .index
    else scan n d0 xs (i + 1) offs

/-- raw_classes.py 97-113: set_steps for `n = len(step_info)`; gives step_offsets. `step_offsets[0] = 0` fails for n = 0.
What is left in the object when an exception is raised is not modelled. -/
def setSteps {α : Type} [DecidableEq α] (data : List α) (n : Nat) : Except Err (List Nat) :=
  if n = 0 then .error .index
  else match data with
    | [] => if 1 ≠ n then .error .spiceRead else .ok [0]
    | d0 :: rest => scan n d0 rest 1 [0]

/-- raw_classes.py 115-132: step_offset. -/
def Axis.stepOffset {α : Type} (a : Axis α) (step : Nat) : Nat :=
  match a.offsets with
  | none => if step > 0 then a.data.length else 0
  | some offs => match offs[step]? with
    | none => a.data.length
    | some o => o

/-- A Python slice `xs[i:j]` with non-negative bounds. -/
def slice {α : Type} (xs : List α) (i j : Nat) : List α := (xs.take j).drop i

/-- raw_classes.py 134-152: Axis.get_wave. `absf` is the absolute value, applied to the time axis only. -/
def Axis.getWave {α : Type} (absf : α → α) (a : Axis α) (step : Nat) : List α :=
  let wave := if step = 0 then a.data.take (a.stepOffset 1) else slice a.data (a.stepOffset step) (a.stepOffset (step + 1))
  if a.isTime then wave.map absf else wave

/-- raw_classes.py 169-177: Axis.get_point. -/
def Axis.getPoint {α : Type} (a : Axis α) (n step : Nat) : Except Err α :=
  match a.data[n + a.stepOffset step]? with
  | none => .error .index
  | some x => .ok x

/-- raw_classes.py 210-217: Axis.get_len. -/
def Axis.getLen {α : Type} (a : Axis α) (step : Nat) : Nat := a.stepOffset (step + 1) - a.stepOffset step

/-- raw_classes.py 219-223: len(axis). -/
def Axis.len {α : Type} (a : Axis α) : Nat :=
  match a.offsets with
  | none => a.data.length
  | some _ => a.getLen 0

/-- The value returned by get_position: an integer index, a float, or None when the loop falls off the end. -/
inductive Pos where
  | int (i : Nat)
  | float (q : Rat)
  | none
  deriving DecidableEq, Repr

/-- raw_classes.py 200-208: the loop of get_position from index `i`; `prev` is `timex[i - 1]`. -/
def position (t : Rat) : List Rat → Nat → Rat → Except Err Pos
  | [], _, _ => .ok .none
  | x :: xs, i, prev =>
    if x = t then .ok (.int i)
    else if x > t then
      if i = 0 then .error .index
      else .ok (.float (((i - 1 : Nat) : Rat) + (t - prev) / (x - prev)))
    else position t xs (i + 1) x

/-- raw_classes.py 184-208: Axis.get_position, for a real axis. (For the time axis get_time_axis returns get_wave, 167.)
The value of `prev` at index 0 is not used. -/
def Axis.getPosition (a : Axis Rat) (t : Rat) (step : Nat) : Except Err Pos :=
  position t (a.getWave (fun x => |x|) step) 0 0

/-- A TraceRead object (raw_classes.py 230-240): its samples and its axis, if any. -/
structure Trace (α β : Type) where
  data : List β
  axis : Option (Axis α)

/-- raw_classes.py 264-281: TraceRead.get_wave. -/
def Trace.getWave {α β : Type} (tr : Trace α β) (step : Nat) : List β :=
  match tr.axis with
  | none => tr.data
  | some a => if step = 0 then tr.data.take (a.stepOffset 1) else slice tr.data (a.stepOffset step) (a.stepOffset (step + 1))

/-- raw_classes.py 242-256: TraceRead.get_point. -/
def Trace.getPoint {α β : Type} (tr : Trace α β) (n step : Nat) : Except Err β :=
  let idx := match tr.axis with
    | none => if n ≠ 0 then n else step
    | some a => a.stepOffset step + n
  match tr.data[idx]? with
  | none => .error .index
  | some x => .ok x

/-- raw_classes.py 308-315: TraceRead.get_len: the offset of the next step, not the length of the step. -/
def Trace.getLen {α β : Type} (a : Axis α) (step : Nat) : Nat := a.stepOffset (step + 1)

/-- raw_classes.py 283-306: TraceRead.get_point_at, for a real trace with axis `a`. `int(pos)` is the floor (positions are
not negative). A position of None reaches `self.data[offset + None]`, a TypeError (256). -/
def getPointAt (data : List Rat) (a : Axis Rat) (t : Rat) (step : Nat) : Except Err Rat :=
  match a.getPosition t step with
  | .error e => .error e
  | .ok .none => .error .type
  | .ok (.int i) =>
    match data[a.stepOffset step + i]? with
    | none => .error .index
    | some x => .ok x
  | .ok (.float q) =>
    let offset := a.stepOffset step
    let i := q.floor.toNat
    let last : Int := (Trace.getLen (β := Rat) a step : Int) - 1
    if (i : Int) < last then
      match data[offset + i]?, data[offset + i + 1]? with
      | some y0, some y1 => .ok (y0 + (q - i) * (y1 - y0))
      | _, _ => .error .index
    else if q = last then
      match data[offset + i]? with
      | none => .error .index
      | some y => .ok y
    else .error .index

end Model.RawClasses
