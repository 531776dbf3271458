import Mathlib.Algebra.Module.Rat
import Mathlib.Algebra.Order.Ring.Rat
import Mathlib.Data.List.Forall2
/-
Model of RawWrite.add_traces_from_raw, `_rename_netlabel`, `_interpolate` and `_consolidate`
(spicelib/raw/raw_write.py 179-348). Sample values are taken from a vector space over the rationals (so that
real and complex samples are covered at once), axis points are rational numbers: rounding to float32/float64
and complex-valued axes (AC analyses) are not modelled. A RawRead source is a value: its numerical type, axis
and traces per step.
-/
namespace Model.RawMerge

abbrev Str := List Char

/-- Exceptions raised by the modelled functions: `ValueError` (255, 258), `AssertionError` (309), `IndexError`
(numpy indexing in 319-328, RawRead.get_trace). -/
inductive Err where | value | assertion | index
  deriving DecidableEq, Repr

variable {V : Type} [AddCommGroup V] [Module ℚ V]

/-- raw_write.py 322 and 327: `(data[i] - data[i-1]) / (axis[i] - axis[i-1])`; an index out of range raises. -/
def slopeAt (ys : List V) (xs : List ℚ) (i : Nat) : Except Err V :=
  match xs[i - 1]?, xs[i]?, ys[i - 1]?, ys[i]? with
  | some x0, some x1, some y0, some y1 => .ok ((x1 - x0)⁻¹ • (y1 - y0))
  | _, _, _, _ => .error .index

/-- raw_write.py 325-327: `while trace_axis[i] < t: i += 1; slope = …`. The fuel bounds the number of turns; it
is started with the length of the axis, which the index cannot exceed. -/
def advance (ys : List V) (xs : List ℚ) (t : ℚ) : Nat → Nat → V → Except Err (Nat × V)
  | 0, _, _ => .error .index
  | fuel + 1, i, slope =>
    match xs[i]? with
    | none => .error .index
    | some x =>
      if x < t then
        match slopeAt ys xs (i + 1) with
        | .error e => .error e
        | .ok sl => advance ys xs t fuel (i + 1) sl
      else .ok (i, slope)

/-- raw_write.py 324-328: the loop over the new axis; `new_data[j] = data[i-1] + slope * (t - axis[i-1])`. -/
def resample (ys : List V) (xs : List ℚ) : List ℚ → Nat → V → Except Err (List V)
  | [], _, _ => .ok []
  | t :: ts, i, slope =>
    match advance ys xs t (xs.length + 1) i slope with
    | .error e => .error e
    | .ok (k, sl) =>
      match xs[k - 1]?, ys[k - 1]? with
      | some x0, some y0 =>
        match resample ys xs ts k sl with
        | .error e => .error e
        | .ok vs => .ok ((y0 + (t - x0) • sl) :: vs)
      | _, _ => .error .index

/-- raw_write.py 317-329, `_interpolate`. Line 320 (`new_data[0] = trace_data[0]`) raises on an empty new axis
or empty data; the value it stores is overwritten by the loop. -/
def interpolate (ys : List V) (xs : List ℚ) (new : List ℚ) : Except Err (List V) :=
  if new = [] ∨ ys = [] then .error .index
  else
    match slopeAt ys xs 1 with
    | .error e => .error e
    | .ok sl => resample ys xs new 1 sl

/-- raw_write.py 284-299: the merging loop, `while e < len(my)-1 and i < len(other)-1`. Both lists are consumed
from the front; the loop stops when one point is left in either. Every turn consumes a point, so the fuel (the
sum of the lengths) is never used up. -/
def mergeGo (adm : ℚ) : Nat → List ℚ → List ℚ → List ℚ
  | n + 1, a :: a' :: as, b :: b' :: bs =>
    if |b - a| < adm then a :: mergeGo adm n (a' :: as) (b' :: bs)
    else if b - a < 0 then b :: mergeGo adm n (a :: a' :: as) (b' :: bs)
    else a :: mergeGo adm n (a' :: as) (b :: b' :: bs)
  | _, _, _ => []

/-- raw_write.py 279-301: the merged axis; `my_axis` first, then `other_axis`. -/
def mergeAxes (adm : ℚ) (mine other : List ℚ) : List ℚ := mergeGo adm (mine.length + other.length) mine other

/-- One trace of the file being written. -/
structure Wave (V : Type) where
  name : Str
  data : List V
  deriving DecidableEq

/-- A trace waiting in `_imported_data` (raw_write.py 303-307): a reference to the trace object of the source `src`
(whose attribute `name` has been changed), with its samples and axis of step 0 (341-342: `get_wave()` is called
without a step). -/
structure Pending (V : Type) where
  src : Nat
  key : Str
  name : Str
  data : List V
  axis : List ℚ

/-- A RawRead source: an identity, its numerical type (`real`/`complex`, 245-251), name and type of its axis, and
for every step the axis and the traces. -/
structure Source (V : Type) where
  id : Nat
  complex : Bool
  axisName : Str
  axisType : Str
  axis : List (List ℚ)
  traces : List (Str × List (List V))

/-- The RawWrite object (raw_write.py 81-92) as far as the merging uses it; `axis = none` is a file without
traces; `newAxis = []` stands both for `_new_axis = None` and for an empty `_new_axis` (275 and 332 test its
truth value). -/
structure File (V : Type) where
  complex : Bool
  axisName : Str
  axisType : Str
  axis : Option (List ℚ)
  traces : List (Wave V)
  newAxis : List ℚ
  pending : List (Pending V)

/-- Keyword arguments (237-240): `force_axis_alignment`, `admissible_error`, `step`, `add_tag`.
`minimum_timestep` (raises NotImplementedError when used) and `rename_format` are left out. -/
structure Options where
  align : Bool
  adm : ℚ
  step : Nat
  tag : Option Str

/-- raw_write.py 183-186, `re.match('([IViv])\(([^)]+)\)', name)`: the letter and the text in the brackets. -/
def container (name : Str) : Option (Char × Str) :=
  match name with
  | c :: '(' :: rest =>
    if c ∈ ['I', 'V', 'i', 'v'] then
      let inner := rest.takeWhile (· ≠ ')')
      match rest.dropWhile (· ≠ ')') with
      | [] => none
      | _ :: _ => if inner = [] then none else some (c, inner)
    else none
  | _ => none

/-- raw_write.py 179-200, `_rename_netlabel` without `rename_format`. -/
def rename (tag : Option Str) (name : Str) : Str :=
  match tag with
  | none => name
  | some t =>
    match container name with
    | some (c, inner) => c :: '(' :: (inner ++ '_' :: t ++ [')'])
    | none => name ++ '_' :: t

/-- `other.get_trace(name)` for the traces of the source (the case-insensitive search is C25). -/
def Source.trace (o : Source V) (name : Str) : Except Err (List (List V)) :=
  match o.traces.lookup name with
  | some d => .ok d
  | none => .error .index

/-- raw_write.py 303-307: the aligned import of one trace. Setting `imported_trace.name` also renames the trace in
earlier entries that refer to the same object. -/
def pend (tag : Option Str) (o : Source V) (w : File V) (name : Str) : Except Err (File V) :=
  match o.trace name with
  | .error e => .error e
  | .ok d =>
    let new := rename tag name
    let old := w.pending.map (fun p => if p.src = o.id ∧ p.key = name then { p with name := new } else p)
    .ok { w with pending := old ++ [⟨o.id, name, new, d.getD 0 [], o.axis.getD 0 []⟩] }

/-- raw_write.py 311-315: the direct import of one trace. -/
def copyIn (opt : Options) (o : Source V) (w : File V) (name : Str) : Except Err (File V) :=
  match o.trace name with
  | .error e => .error e
  | .ok d => .ok { w with traces := w.traces ++ [⟨rename opt.tag name, d.getD opt.step []⟩] }

/-- A `for trace_name in trace_filter` loop. -/
def each (f : File V → Str → Except Err (File V)) : List Str → File V → Except Err (File V)
  | [], w => .ok w
  | n :: ns, w =>
    match f w n with
    | .error e => .error e
    | .ok w' => each f ns w'

/-- raw_write.py 308-315: the branch without alignment. -/
def importPlain (opt : Options) (o : Source V) (names : List Str) (axis : List ℚ) (w : File V) : Except Err (File V) :=
  if axis.length = (o.axis.getD opt.step []).length then each (copyIn opt o) names w
  else .error .assertion

/-- raw_write.py 274-307: the branch with alignment. -/
def importAligned (opt : Options) (o : Source V) (names : List Str) (axis : List ℚ) (w : File V) : Except Err (File V) :=
  let mine := if w.newAxis = [] then axis else w.newAxis
  each (pend opt.tag o) names { w with newAxis := mergeAxes opt.adm mine (o.axis.getD opt.step []) }

/-- raw_write.py 209-315, `add_traces_from_raw`. -/
def addTraces (opt : Options) (o : Source V) (names : List Str) (w : File V) : Except Err (File V) :=
  match w.axis with
  | some axis =>                                                   -- 253-261
    if w.complex ≠ o.complex then .error .value
    else if w.axisType ≠ o.axisType then .error .value
    else if names = [] then .ok w
    else if opt.align then importAligned opt o names axis w else importPlain opt o names axis w
  | none =>                                                        -- 263-272
    let axis := o.axis.getD opt.step []
    importPlain opt o names axis { w with complex := o.complex, axisName := o.axisName, axisType := o.axisType, axis := some axis }

/-- raw_write.py 340-344: the pending traces, resampled. -/
def bring (new : List ℚ) : List (Pending V) → Except Err (List (Wave V))
  | [] => .ok []
  | p :: ps =>
    match interpolate p.data p.axis new with
    | .error e => .error e
    | .ok d =>
      match bring new ps with
      | .error e => .error e
      | .ok ws => .ok (⟨p.name, d⟩ :: ws)

/-- raw_write.py 338-339: the traces already in the file, resampled. -/
def redo (axis new : List ℚ) : List (Wave V) → Except Err (List (Wave V))
  | [] => .ok []
  | t :: ts =>
    match interpolate t.data axis new with
    | .error e => .error e
    | .ok d =>
      match redo axis new ts with
      | .error e => .error e
      | .ok ws => .ok (⟨t.name, d⟩ :: ws)

/-- raw_write.py 331-348, `_consolidate` (called by `save` when traces are pending, 151-152). -/
def consolidate (w : File V) : Except Err (File V) :=
  match w.axis with
  | none => .error .index
  | some axis =>
    if w.newAxis = [] ∨ w.pending = [] then .ok w
    else
      match (if w.newAxis.length ≠ axis.length then redo axis w.newAxis w.traces else .ok w.traces) with
      | .error e => .error e
      | .ok old =>
        match bring w.newAxis w.pending with
        | .error e => .error e
        | .ok more => .ok { w with axis := some w.newAxis, traces := old ++ more, newAxis := [], pending := [] }

end Model.RawMerge
