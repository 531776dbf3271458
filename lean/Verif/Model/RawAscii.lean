import Verif.Model.RawFile
import Verif.Model.Export
/-
ASCII RAW files: spicelib/raw/plot_data.py 345-406 (_read_ascii_vector), for files in utf_8 without aliases. The data section is the text
behind the header. Numbers are parameters: `float` is Python's float(str) (none: ValueError), `store` the conversion to the numerical type
of the array, `cplx` the complex number.
-/
namespace Model.RawAscii
open Model.PyStr
open Model.RawFile hiding column
open Model.RawClasses (setSteps)
open Model.Export (fileLines)

/-- What numbers are. -/
structure Num (Q V : Type) where
  float : Str → Option Q
  store : NumType → Q → V
  cplx : Q → Q → V
  zero : V

/-- `line.split("\t", 1)` into two parts; none: the ValueError of unpacking a single part. -/
def splitTab : Str → Option (Str × Str)
  | [] => none
  | c :: s => if c = '\t' then some ([], s) else (splitTab s).map (fun r => (c :: r.1, r.2))

/-- plot_data.py 384-393: the number written for a variable. -/
def parseValue {Q V : Type} (N : Num Q V) (num : NumType) (value : Str) : Except Err V :=
  if num = .complex then
    match splitOn ',' value with
    | [a, b] =>
      match N.float a, N.float b with
      | some x, some y => .ok (N.cplx x y)
      | _, _ => .error .value
    | _ => .error .spiceRead
  else match N.float value with
    | some x => .ok (N.store num x)
    | none => .error .value

/-- plot_data.py 373-382: the text of the value in a (stripped) line; the first variable of a point is preceded by the number of the point. -/
def valueText (point : Nat) (first : Bool) (line : Str) : Except Err Str :=
  if first then
    match splitTab line with
    | none => .error .value
    | some (sp, value) =>
      match parseInt sp with
      | none => .error .value
      | some i => if i ≠ (point : Int) then .error .spiceRead else .ok value
  else .ok line

/-- `self._read_traces[name].data[point] = v` -/
def assign {V : Type} (d : List (Str × List V)) (name : Str) (point : Nat) (v : V) : List (Str × List V) :=
  put d name (((d.lookup name).getD []).set point v)

/-- plot_data.py 364-394: the loop over the variables of a point; gives the data and the lines that are left. Empty lines are skipped, the
end of the file is an exception. -/
def readVars {Q V : Type} (N : Num Q V) (point : Nat) : List Str → List Info → Bool → List (Str × List V) → Except Err (List (Str × List V) × List Str)
  | lines, [], _, d => .ok (d, lines)
  | [], _ :: _, _, _ => .error .spiceRead
  | line :: ls, v :: vs, first, d =>
    if strip line = [] then readVars N point ls (v :: vs) first d
    else match valueText point first (strip line) with
      | .error e => .error e
      | .ok text =>
        match parseValue N v.num text with
        | .error e => .error e
        | .ok x => readVars N point ls vs false (assign d v.name point x)

/-- plot_data.py 362-394: the loop over the points, from number `point` on. -/
def readPoints {Q V : Type} (N : Num Q V) (info : List Info) : Nat → Nat → List Str → List (Str × List V) → Except Err (List (Str × List V) × List Str)
  | 0, _, lines, d => .ok (d, lines)
  | n + 1, point, lines, d =>
    match readVars N point lines info true d with
    | .error e => .error e
    | .ok (d', lines') => readPoints N info n (point + 1) lines' d'

/-- How reading the plot ends: with the data and the lines left in the file, with an exception, or not at all. -/
inductive Outcome (V : Type) where
  | done (d : List (Str × List V)) (rest : List Str)
  | raised (e : Err)
  | never
  deriving DecidableEq, Repr

/-- plot_data.py 396-403: the lines behind the data. A line that is not empty is put back and read again, for ever. -/
def finish {V : Type} (d : List (Str × List V)) : List Str → Outcome V
  | [] => .done d []
  | line :: ls => if strip line = [] then .done d ls else .never

/-- plot_data.py 345-361: the arrays, all zero; the steps of the axis are looked for in its array of zeros. -/
def prepare {Q V : Type} [DecidableEq V] (N : Num Q V) (p : Plot) (steps : Option Nat) : Except Err (List (Str × List V)) :=
  let d := p.info.foldl (fun d i => put d i.name (List.replicate p.nPoints N.zero)) []
  if p.hasAxis ∧ p.info ≠ [] then
    match steps with
    | none => .ok d
    | some n =>
      match setSteps (List.replicate p.nPoints N.zero) n with
      | .error .spiceRead => .error .spiceRead
      | .error _ => .error .index
      | .ok _ => .ok d
  else .ok d

/-- plot_data.py 345-406: _read_ascii_vector. -/
def readAscii {Q V : Type} [DecidableEq V] (N : Num Q V) (p : Plot) (steps : Option Nat) (text : Str) : Outcome V :=
  match prepare N p steps with
  | .error e => .raised e
  | .ok d =>
    match readPoints N p.info p.nPoints 0 (fileLines text) d with
    | .error e => .raised e
    | .ok (d', rest) => finish d' rest

end Model.RawAscii
