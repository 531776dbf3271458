import Verif.Model.LogData
/-
Model of the readers of spicelib/log/ltsteps.py (LTSpiceLogReader, reformat_LTSpice_export, LTSpiceExport) and
spicelib/log/qspice_log_reader.py (QspiceLogReader.__init__, step lines).

`conv` is try_convert_value (logfile_data.py 76-101). Decoding of the file and the regular expressions that recognise
the kinds of lines are not modelled unless stated.
-/
namespace Model.LogRead
open Model.LogData (Name Dict lower)

/-- `str.split(sep)` for a one-character separator. -/
def splitOn (sep : Char) : List Char → List (List Char)
  | [] => [[]]
  | c :: cs =>
    if c = sep then [] :: splitOn sep cs
    else match splitOn sep cs with
      | [] => [[c]]
      | w :: ws => (c :: w) :: ws

/-- `line.strip('\r\n')` at the end of the line. (A `.step` line cannot start with these characters.) -/
def stripEol (l : List Char) : List Char := (l.reverse.dropWhile (fun c => c = '\r' || c = '\n')).reverse

/-- `d[key].append(v)` or `d[key] = [v]` (ltsteps.py 382-386; qspice_log_reader.py 88-92). An empty list is falsy and
is replaced by `[v]`, which is the same. -/
def push {V : Type} (k : Name) (v : V) : Dict (List V) → Dict (List V)
  | [] => [(k, [v])]
  | (k', c) :: d => if k' = k then (k', c ++ [v]) :: d else (k', c) :: push k v d

/-- The step table: `stepset` and `step_count`. -/
structure Steps (V : Type) where
  stepset : Dict (List V)
  count : Nat
  deriving DecidableEq

/-- ltsteps.py 373-386: the loop over the tokens of a `.step` line, returning the table and `valid_step`. `none` is the
ValueError of `lhs, rhs = tok.split("=")`. -/
def stepTokens {V : Type} (conv : List Char → V) : List (List Char) → Dict (List V) → Option (Dict (List V) × Bool)
  | [], d => some (d, false)
  | tok :: toks, d =>
    if '=' ∈ tok then
      match splitOn '=' tok with
      | [lhs, rhs] =>
        match stepTokens conv toks (push (lower lhs) (conv rhs) d) with
        | none => none
        | some (d', _) => some (d', true)
      | _ => none
    else stepTokens conv toks d

/-- ltsteps.py 370-388: one line starting with ".step". -/
def stepLine {V : Type} (conv : List Char → V) (s : Steps V) (line : List Char) : Option (Steps V) :=
  match stepTokens conv (splitOn ' ' (stripEol line)).tail s.stepset with
  | none => none
  | some (d, valid) => some ⟨d, if valid then s.count + 1 else s.count⟩

/-- The `.step` lines of a log file, in order (ltsteps.py 325-415; the other lines do not touch the step table). -/
def stepLines {V : Type} (conv : List Char → V) : Steps V → List (List Char) → Option (Steps V)
  | s, [] => some s
  | s, l :: ls =>
    match stepLine conv s l with
    | none => none
    | some s' => stepLines conv s' ls

/-- LTSpiceLogReader(..., step_set): logfile_data.py 153-164, `step_count = len(stepset)`. -/
def Steps.new {V : Type} (given : Dict (List V)) : Steps V := ⟨given, given.length⟩

/-- qspice_log_reader.py 72-92: one line recognised by `step_regex`, with its step number and assignments; the step
count is increased unconditionally and compared with the number (`none` also covers the AssertionError of 77). -/
def qspiceStep {V : Type} (conv : List Char → V) (s : Steps V) (no : Nat) (rest : List Char) : Option (Steps V) :=
  if s.count + 1 ≠ no then none
  else match stepTokens conv (splitOn ' ' (stripEol rest)) s.stepset with
    | none => none
    | some (d, _) => some ⟨d, s.count + 1⟩

/-! ### Measurement tables (ltsteps.py 417-461) -/

/-- A line of the measurement part: "Measurement: name", or the tokens between tabs. -/
inductive MLine where
  | title (name : Name)
  | tokens (ts : List Name)

/-- `dataset[key] = v` of a Python dict. -/
def put {V : Type} (k : Name) (v : V) : Dict V → Dict V
  | [] => [(k, v)]
  | (k', w) :: d => if k' = k then (k', v) :: d else (k', w) :: put k v d

/-- The local variables and the dataset. -/
structure MState (V : Type) where
  dataset : Dict (List V)
  dataname : Option Name
  headers : List Name
  rows : List (List V)

/-- ltsteps.py 429-430 and 460-461: for every header the column of the measurements; `none` is the IndexError of a row
shorter than the header. -/
def store {V : Type} (rows : List (List V)) : Nat → List Name → Dict (List V) → Option (Dict (List V))
  | _, [], d => some d
  | k, t :: ts, d =>
    match rows.mapM (fun r => r[k]?) with
    | none => none
    | some col => store rows (k + 1) ts (put (lower t) col d)

/-- ltsteps.py 444-447: renaming of the columns FROM/at/TO. `ts` are the tokens of the header line. -/
def renameHeader (name : Name) (ts : List Name) : List Name :=
  let ts := match ts with
    | a :: b :: c :: r => if c = "FROM".toList ∨ c = "at".toList then a :: b :: (name ++ '_' :: c) :: r else ts
    | _ => ts
  match ts with
    | a :: b :: c :: e :: r => if e = "TO".toList then a :: b :: c :: (name ++ "_TO".toList) :: r else ts
    | _ => ts

/-- ltsteps.py 421-453: one line. `isInt` tells whether `int(token)` succeeds. `dataname = None` in a header line
would raise a TypeError in 445-448 (`none`) when a renaming applies; the list `[None]` otherwise is modelled by an
empty name. An empty title (`if dataname:` of 424) is treated as a title. -/
def mLine {V : Type} (conv : Name → V) (isInt : Name → Bool) (s : MState V) : MLine → Option (MState V)
  | .title name =>
    match s.dataname with
    | none => some { s with dataname := some name }
    | some _ =>
      if s.rows = [] then some ⟨s.dataset, some name, [], []⟩
      else match store s.rows 0 s.headers s.dataset with
        | none => none
        | some d => some ⟨d, some name, [], []⟩
  | .tokens ts =>
    match ts with
    | t0 :: t1 :: _ =>
      if isInt t0 then some { s with rows := s.rows ++ [ts.tail.map conv] }         -- 438-442
      else some { s with headers := (s.dataname.getD []) :: (renameHeader (s.dataname.getD []) ts).drop 2, rows := [] }
    | _ => some s

def mLines {V : Type} (conv : Name → V) (isInt : Name → Bool) : MState V → List MLine → Option (MState V)
  | s, [] => some s
  | s, l :: ls => match mLine conv isInt s l with
    | none => none
    | some s' => mLines conv isInt s' ls

/-- ltsteps.py 417-461: the whole measurement part. -/
def readMeasures {V : Type} (conv : Name → V) (isInt : Name → Bool) (d : Dict (List V)) (ls : List MLine) :
    Option (Dict (List V)) :=
  match mLines conv isInt ⟨d, none, [], []⟩ ls with
  | none => none
  | some s => if s.rows = [] then some s.dataset else store s.rows 0 s.headers s.dataset

/-! ### Exported waveforms -/

/-- A line of an "Export data as text" file after the first one: a step header recognised by the regular
expression (run number and `key=value` parts; the value is `none` when there is no `=`), a line starting with "Step
Information:" that is not recognised, or any other line. -/
inductive XLine where
  | step (run : Name) (params : List (Name × Option Name))
  | badStep
  | data (text : Name)

/-- A line written by reformat_LTSpice_export. -/
inductive OLine where
  | header (keys : List Name)          -- Run, keys, original header
  | row (run : Name) (values : List Name) (text : Name)
  deriving DecidableEq

/-- ltsteps.py 130-150: the loop, with `go_header`, `run_no`, `param_values`. `none` is the IndexError of 137. -/
def reformatLoop : Bool → Name → List Name → List XLine → Option (List OLine)
  | _, _, _, [] => some []
  | go, run, vals, .badStep :: ls => reformatLoop go run vals ls
  | go, run, vals, .data t :: ls =>
    match reformatLoop go run vals ls with
    | none => none
    | some out => some (.row run vals t :: out)
  | go, _, _, .step run' params :: ls =>
    match params.mapM (·.2) with
    | none => none
    | some vals' =>
      match reformatLoop false run' vals' ls with
      | none => none
      | some out => some (if go then .header (params.map (·.1)) :: out else out)

/-- ltsteps.py 99-153, reformat_LTSpice_export, after the first line. -/
def reformat (ls : List XLine) : Option (List OLine) := reformatLoop true ['0'] [] ls

/-- ltsteps.py 187-216, LTSpiceExport.__init__ after the first line; `headers` are the titles of the first line
(191: the last one keeps its line terminator). State: `go_header`, `curr_dic`, `dataset`. `none` = KeyError /
ValueError / IndexError. Data lines are given by their values. `raw` embeds the run number, which is
kept as a string (196). -/
inductive ELine where
  | step (run : Name) (params : List (Name × Name))
  | data (values : List Name)

def appendKeys {V : Type} : List (Name × V) → Dict (List V) → Option (Dict (List V))
  | [], d => some d
  | (k, v) :: kvs, d => if (d.map (·.1)).contains k then appendKeys kvs (push k v d) else none

def exportLoop {V : Type} (conv raw : Name → V) (headers : List Name) : Bool → Dict V → Dict (List V) → List ELine → Option (Dict (List V))
  | _, _, d, [] => some d
  | go, cur, d, .step run params :: ls =>
    let cur' := params.foldl (fun c p => put p.1 (conv p.2) c) (put "runno".toList (raw run) cur)
    let d' := if go then cur'.foldl (fun x e => put (lower e.1) [] x) (headers.foldl (fun x h => put (lower h) [] x) d) else d
    exportLoop conv raw headers false cur' d' ls
  | go, cur, d, .data vs :: ls =>
    match appendKeys (cur.map (fun e => (lower e.1, e.2))) d with
    | none => none
    | some d1 =>
      if headers.length < vs.length then none
      else match appendKeys ((headers.zip vs).map (fun p => (lower p.1, conv p.2))) d1 with
        | none => none
        | some d2 => exportLoop conv raw headers go cur d2 ls

def readExport {V : Type} (conv raw : Name → V) (headers : List Name) (ls : List ELine) : Option (Dict (List V)) :=
  exportLoop conv raw headers true [] [] ls

end Model.LogRead
