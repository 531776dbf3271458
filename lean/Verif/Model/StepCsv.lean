import Verif.Model.PyStr
/-
The values of the simulations of a sweep as a CSV file: SimStepper.export_step_info (spicelib/sim/sim_stepping.py 239-270).

csv.DictWriter and its writer with quoting=QUOTE_NONNUMERIC are the Python library: a field that is not a number is quoted, a field with a delimiter, a quote or a line
break in its text as well; quotes inside are doubled, rows end with a carriage return and a line feed. How a number is printed is part of the value.
-/
namespace Model.StepCsv

abbrev Str := List Char

/-- A value set during the sweep: a text or a number (its text). -/
inductive Val
  | text (s : Str)
  | num (shown : Str)
  deriving DecidableEq, Repr

/-- IndexError, ValueError -/
inductive Err
  | index | value
  deriving DecidableEq, Repr

abbrev Dict := List (Str × Val)

/-- `d[k] = v` -/
def put (d : Dict) (k : Str) (v : Val) : Dict :=
  match d with
  | [] => [(k, v)]
  | e :: r => if e.1 = k then (k, v) :: r else e :: put r k v

/-- `d.update(e)` -/
def update (d e : Dict) : Dict := e.foldl (fun d p => put d p.1 p.2) d

/-- `rows.sort()` of run numbers, each with its values (250-252, 268). -/
def insert (x : Nat × Dict) : List (Nat × Dict) → List (Nat × Dict)
  | [] => [x]
  | y :: r => if x.1 ≤ y.1 then x :: y :: r else y :: insert x r
def sorted : List (Nat × Dict) → List (Nat × Dict)
  | [] => []
  | x :: r => insert x (sorted r)

/-- The characters that make the writer quote a field. (Python library.) -/
def special (delim c : Char) : Bool := c = delim || c = '"' || c = '\r' || c = '\n'
/-- Quotes are doubled. (Python library.) -/
def doubled : Str → Str
  | [] => []
  | c :: r => if c = '"' then '"' :: '"' :: doubled r else c :: doubled r
def quote (s : Str) : Str := '"' :: (doubled s ++ ['"'])
/-- A field. (Python library.) -/
def field (delim : Char) : Val → Str
  | .text s => quote s
  | .num s => if s.any (special delim) then quote s else s
/-- A row. (Python library.) -/
def row (delim : Char) (vs : List Val) : Str := List.intercalate [delim] (vs.map (field delim)) ++ ['\r', '\n']

/-- DictWriter._dict_to_list: ValueError for a key that is no column; a missing value is the empty text. (Python library.) -/
def dictRow (names : List Str) (d : Dict) : Except Err (List Val) :=
  if d.all (fun e => decide (e.1 ∈ names)) then .ok (names.map (fun n => (d.lookup n).getD (.text []))) else .error .value

/-- 267-270 -/
def rowOf (x : Nat × Dict) : Dict := update [("runno".toList, .num (Model.PyStr.showNat x.1))] x.2

/-- The rows until an exception. -/
def rows (delim : Char) (names : List Str) : List (Nat × Dict) → Except Err Str
  | [] => .ok []
  | x :: r =>
    match dictRow names (rowOf x) with
    | .error e => .error e
    | .ok vs => match rows delim names r with
      | .error e => .error e
      | .ok t => .ok (row delim vs ++ t)

/-- export_step_info (239-270): the text of the file. After a ValueError a part of it is already written; the model does not say which. -/
def exportCsv (delim : Char) (info : List (Nat × Dict)) : Except Err Str :=
  match sorted info with
  | [] => .error .index
  | x :: r =>
    let names := "runno".toList :: x.2.map Prod.fst
    match rows delim names (x :: r) with
    | .error e => .error e
    | .ok t => .ok (row delim (names.map .text) ++ t)

end Model.StepCsv
