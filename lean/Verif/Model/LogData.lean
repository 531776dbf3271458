import Mathlib.Data.Rat.Defs
import Mathlib.Algebra.Field.Rat
/-
Model of the queries and of the export of LogfileData (spicelib/log/logfile_data.py).

Names are lists of characters; `str.lower` is modelled for ASCII letters. Values are an arbitrary type with equality.
A dictionary is the list of its items in insertion order.
-/
namespace Model.LogData

abbrev Name := List Char

/-- `str.lower` (ASCII). -/
def lower (n : Name) : Name := n.map Char.toLower

abbrev Dict (V : Type) := List (Name × V)

/-- `key in d` / `d[key]`. -/
def Dict.get {V : Type} (d : Dict V) (k : Name) : Option V := (d.find? (fun e => e.1 == k)).map (·.2)

/-- logfile_data.py 152-165: the two tables. `stepCount` is `step_count`. -/
structure Data (V : Type) where
  stepset : Dict (List V)
  dataset : Dict (List V)
  stepCount : Nat

/-- logfile_data.py 152-165, `LogfileData.__init__(step_set, dataset)`. -/
def Data.new {V : Type} (stepset dataset : Dict (List V)) : Data V := ⟨stepset, dataset, stepset.length⟩

variable {V R : Type} [DecidableEq V]

/-- logfile_data.py 176-181 and 199-205: a step variable, otherwise a measurement, otherwise IndexError (`none`). -/
def Data.column (d : Data V) (param : Name) : Option (List V) :=
  match d.stepset.get (lower param) with
  | some c => some c
  | none => d.dataset.get (lower param)

/-- logfile_data.py 209: `[i for i, a in enumerate(condition_set) if a == v]`. -/
def positions (v : V) : Nat → List V → List Nat
  | _, [] => []
  | i, a :: as => if a = v then i :: positions v (i + 1) as else positions v (i + 1) as

/-- logfile_data.py 191-209, steps_with_parameter_equal_to. `conv` is try_convert_value (76-101). -/
def stepsEq (conv : R → V) (d : Data V) (param : Name) (value : R) : Option (List Nat) :=
  match d.column param with
  | none => none
  | some col => some (positions (conv value) 0 col)

/-- logfile_data.py 219-228: the loop over the conditions; the first argument is `current_set`. Outer `none` is an
IndexError, inner `none` is Python's None. -/
def stepsLoop (conv : R → V) (d : Data V) : Option (List Nat) → List (Name × R) → Option (Option (List Nat))
  | cur, [] => some cur
  | cur, (p, v) :: rest =>
    match stepsEq conv d p v with
    | none => none
    | some cs =>
      match cur with
      | none => stepsLoop conv d (some cs) rest
      | some c => stepsLoop conv d (some (c.filter (fun i => cs.contains i))) rest

/-- logfile_data.py 211-228, steps_with_conditions. -/
def stepsWith (conv : R → V) (d : Data V) (conds : List (Name × R)) : Option (Option (List Nat)) :=
  stepsLoop conv d none conds

/-- Python indexing of a list by an integer, negative counting from the end. -/
def pyGet {α : Type} (l : List α) (i : Int) : Option α :=
  if 0 ≤ i then l[i.toNat]? else if 0 ≤ i + l.length then l[(i + l.length).toNat]? else none

/-- The outcome of get_measure_value: a value, Python's None, or an exception. -/
inductive Answer (V : Type) where
  | value (v : V)
  | nothing
  | raised
  deriving DecidableEq

/-- logfile_data.py 244-278, get_measure_value with an integer step or none (slices are not modelled). -/
def measureValue (conv : R → V) (d : Data V) (measure : Name) (step : Option Int) (conds : List (Name × R)) : Answer V :=
  match d.dataset.find? (fun e => lower e.1 == lower measure) with                       -- 253-258
  | none => .raised
  | some (_, col) =>
    match step with
    | none =>
      if conds ≠ [] then
        match stepsWith conv d conds with                                               -- 262
        | some (some [i]) => (match col[i]? with | some v => .value v | none => .raised)  -- 263-265
        | _ => .raised                                                                  -- 267
      else match col with
        | [v] => .value v                                                               -- 268-269
        | [] => .nothing                                                                -- 270-271
        | _ => .raised                                                                  -- 273
    | some i => (match pyGet col i with | some v => .value v | none => .raised)          -- 276

/-- The `steps` argument of get_measure_values_at_steps: None, or a list of step numbers (a single integer makes the
aggregates below raise a TypeError and is not modelled). -/
def valuesAt (d : Data V) (measure : Name) (steps : Option (List Int)) : Option (List V) :=
  match d.dataset.get (lower measure) with                                              -- 289-295
  | none => none
  | some col =>
    match steps with
    | none => some col
    | some is => is.mapM (pyGet col)

/-- logfile_data.py 297-309, max_measure_value on numbers (`none` = KeyError, IndexError or ValueError). -/
def maxMeasure (d : Data ℚ) (m : Name) (steps : Option (List Int)) : Option ℚ :=
  match valuesAt d m steps with
  | some (v :: vs) => some (vs.foldl (fun a b => if a < b then b else a) v)
  | _ => none

/-- logfile_data.py 311-323, min_measure_value. -/
def minMeasure (d : Data ℚ) (m : Name) (steps : Option (List Int)) : Option ℚ :=
  match valuesAt d m steps with
  | some (v :: vs) => some (vs.foldl (fun a b => if b < a then b else a) v)
  | _ => none

/-- logfile_data.py 325-338, avg_measure_value (exact arithmetic). -/
def avgMeasure (d : Data ℚ) (m : Name) (steps : Option (List Int)) : Option ℚ :=
  match valuesAt d m steps with
  | some (v :: vs) => some ((vs.foldl (· + ·) v) / ((vs.length + 1 : ℕ) : ℚ))
  | _ => none

/-! ### export_data -/

/-- An entry of a column: a scalar or a list (402, 443). -/
inductive Cell (V : Type) where
  | one (v : V)
  | many (vs : List V)

/-- The values written for a cell (442-458). -/
def Cell.values : Cell V → List V
  | .one v => [v]
  | .many vs => vs

/-- logfile_data.py 402-408 and 418-424: the titles of one column, decided by its first entry; `(name, some k)` is
`name_k`. `none` is the IndexError of `values[0]`. -/
def titles (name : Name) : List (Cell V) → Option (List (Name × Option Nat))
  | [] => none
  | .many l :: _ => if l.length > 1 then some ((List.range l.length).map (fun k => (name, some k))) else some [(name, none)]
  | .one _ :: _ => some [(name, none)]

/-- The header loop over one dictionary. With `strict` (stepset, 399-400) a length different from the first one
raises; without it (dataset, 414-416) it is only logged. The first argument is `data_size`. -/
def headerLoop (strict : Bool) : Option Nat → Dict (List (Cell V)) → Option (Option Nat × List (Name × Option Nat))
  | size, [] => some (size, [])
  | size, (name, col) :: rest =>
    let size' := match size with | none => some col.length | some n => some n
    if strict && size' != some col.length then none
    else match titles name col with
      | none => none
      | some ts =>
        match headerLoop strict size' rest with
        | none => none
        | some (s, more) => some (s, ts ++ more)

/-- logfile_data.py 432-436: the entries of one line; `none` is the IndexError of a short column. -/
def lineCells (cols : Dict (List (Cell V))) (index : Nat) : Option (List (Cell V)) :=
  cols.mapM (fun e => e.2[index]?)

/-- What export_data does: nothing (380-382), an exception, or a file with the titles following "step" and the rows,
each made of the line number and the values. -/
inductive Export (V : Type) where
  | notWritten
  | raised
  | written (header : List (Name × Option Nat)) (rows : List (Nat × List V))

/-- logfile_data.py 431-462. -/
def exportRows (d : Data (Cell V)) (size : Nat) : Option (List (Nat × List V)) :=
  (List.range size).mapM (fun index =>
    match lineCells (if d.stepCount = 0 then [] else d.stepset) index with
    | none => none
    | some step =>
      match lineCells d.dataset index with
      | none => none
      | some meas => some (index + 1, (step ++ meas).flatMap Cell.values))

/-- logfile_data.py 356-464, export_data (separator, prefix and formatting of the numbers left out). -/
def exportData (d : Data (Cell V)) : Export V :=
  if d.dataset = [] then .notWritten
  else match headerLoop true none d.stepset with
    | none => .raised
    | some (size1, h1) =>
      match headerLoop false size1 d.dataset with
      | none => .raised
      | some (size2, h2) =>
        match exportRows d (size2.getD 0) with
        | none => .raised
        | some rows => .written (h1 ++ h2) rows

end Model.LogData
