import Verif.Model.RawFile
import Verif.Model.Export
/-
Steps of a RAW file (spicelib/raw/plot_data.py 315-330, 810-923) and the export of its traces (925-972, 994-1024).

A log file is its text after decoding and newline translation. `V` are the values (of step parameters: whatever try_convert_value gives;
of samples: decoded numbers). Step numbers are natural numbers: negative indices in `step` lists are not modelled. Files with aliases
(QSPICE) are not modelled here.
-/
namespace Model.RawSteps
open Model.PyStr
open Model.RawFile
open Model.RawClasses (Axis Trace)
open Model.Export (fileLines lits group)
open Model.Regex (Re plus exec)

/-- A step: the dictionary of its parameters. -/
abbrev Step (V : Type) := List (Str × V)

/-- `key, value = tok.split('=')` (840, 873): the ValueError unless there are exactly two parts. -/
def keyValue (tok : Str) : Except Err (Str × Str) :=
  match splitOn '=' tok with
  | [k, v] => .ok (k, v)
  | _ => .error .value

/-- plot_data.py 837-841: the words of a `.step` line of an LTspice log; words without '=' are skipped. -/
def ltTokens {V : Type} (conv : Str → V) : List Str → Step V → Except Err (Step V)
  | [], d => .ok d
  | tok :: ts, d =>
    if '=' ∈ tok then
      match keyValue tok with
      | .error e => .error e
      | .ok kv => ltTokens conv ts (put d kv.1 (conv kv.2))
    else ltTokens conv ts d

/-- plot_data.py 871-875: the words of a step line of a QSPICE log. -/
def qTokens {V : Type} (conv : Str → V) : List Str → Step V → Except Err (Step V)
  | [], d => .ok d
  | tok :: ts, d =>
    match keyValue tok with
    | .error e => .error e
    | .ok kv => qTokens conv ts (put d kv.1 (conv kv.2))

/-- 842-845, 876-879: appending a step to _steps. -/
def push {V : Type} (steps : Option (List (Step V))) (d : Step V) : Option (List (Step V)) :=
  match steps with
  | none => some [d]
  | some l => some (l ++ [d])

/-- plot_data.py 834-845: the loop over the lines of an LTspice log. -/
def ltLoop {V : Type} (conv : Str → V) : List Str → Option (List (Step V)) → Except Err (Option (List (Step V)))
  | [], acc => .ok acc
  | line :: ls, acc =>
    if ".step".toList.isPrefixOf line then
      match ltTokens conv (splitOn ' ' (line.drop 6).dropLast) [] with
      | .error e => .error e
      | .ok d => ltLoop conv ls (push acc d)
    else ltLoop conv ls acc

/-- plot_data.py 861: `^(\d+) of \d+ steps:\s+\.step (.*)$`. The groups are called number and params here. `\d` is an ASCII digit. -/
def stepQ : Re :=
  .seq (.grp .number (plus (.cls Char.isDigit))) (lits " of ".toList (.seq (plus (.cls Char.isDigit)) (lits " steps:".toList
    (.seq (plus (.cls isSpace)) (lits ".step ".toList (.seq (.grp .params (.star (.cls (fun c => c ≠ '\n')))) .eol))))))

/-- `s.strip('\r\n')` -/
def stripEol (s : Str) : Str :=
  ((s.dropWhile (fun c => c = '\r' || c = '\n')).reverse.dropWhile (fun c => c = '\r' || c = '\n')).reverse

/-- plot_data.py 863-879: the loop over the lines of a QSPICE log. -/
def qLoop {V : Type} (conv : Str → V) : List Str → Option (List (Step V)) → Except Err (Option (List (Step V)))
  | [], acc => .ok acc
  | line :: ls, acc =>
    match exec stepQ line with
    | none => qLoop conv ls acc
    | some m =>
      match qTokens conv (splitOn ' ' (stripEol (group m .params))) [] with
      | .error e => .error e
      | .ok d => qLoop conv ls (push acc d)

/-- plot_data.py 810-883: _load_step_information, with _steps = None before. `command` is the Command entry of the header, `suffix` the
suffix of the file name, `log` the text of the .log file (none: missing, or its encoding could not be detected). -/
def loadSteps {V : Type} (conv : Str → V) (command : Option Str) (suffix : Str) (log : Option Str) : Except Err (Option (List (Step V))) :=
  match command with
  | none => .error .spiceRead
  | some c =>
    if contains "ltspice".toList (lower c) then
      if suffix ≠ ".raw".toList then .error .spiceRead
      else match log with
        | none => .error .spiceRead
        | some text => ltLoop conv (fileLines text) none
    else if contains "qspice".toList (lower c) then
      if suffix ≠ ".qraw".toList then .error .spiceRead
      else match log with
        | none => .error .spiceRead
        | some text => qLoop conv (fileLines text) none
    else .error .spiceRead

/-- plot_data.py 315-330: the steps of a plot. Only a SpiceReadException is caught. The axis has not been read yet (127-137), so with an
axis the number of steps is 0. -/
def stepsOf {V : Type} (conv : Str → V) (num : Nat → V) (p : Plot) (command : Option Str) (suffix : Str) (log : Option Str) :
    Except Err (Option (List (Step V))) :=
  if p.steppedFlag then
    match loadSteps conv command suffix log with
    | .ok s => .ok s
    | .error .spiceRead =>
      let n := if p.hasAxis then 0 else p.nPoints
      .ok (some ((List.range n).map (fun i => [("run".toList, num (i + 1))])))
    | .error e => .error e
  else .ok none

/-- plot_data.py 912-917: the inner loop: every keyword present with an equal value. -/
def matches' {V : Type} [DecidableEq V] (d : Step V) : List (Str × V) → Bool
  | [] => true
  | (k, v) :: kw =>
    match d.lookup k with
    | none => false
    | some x => if v ≠ x then false else matches' d kw

/-- plot_data.py 909-920: the outer loop; `i` is the step number. -/
def matching {V : Type} [DecidableEq V] (kw : List (Str × V)) : Nat → List (Step V) → List Nat
  | _, [] => []
  | i, d :: ds => if matches' d kw then i :: matching kw (i + 1) ds else matching kw (i + 1) ds

/-- plot_data.py 889-923: get_steps(**kwargs). -/
def getSteps {V : Type} [DecidableEq V] (steps : Option (List (Step V))) (kw : List (Str × V)) : List Nat :=
  match steps with
  | none => [0]
  | some l => if kw.length > 0 then matching kw 0 l else List.range l.length

/-- The axis object as raw_classes.py sees it: its name, samples and step offsets. -/
def axisOf {V : Type} (val : NumType → Word → V) (p : Plot) (a : Loaded) : Axis V :=
  ⟨match p.info with | [] => false | i0 :: _ => i0.name = "time".toList, a.data.map (val a.num), a.offsets⟩

/-- plot_data.py 747-762: get_wave(trace, step) of a loaded trace (raw_classes.py 134-152, 264-281). The axis a TraceRead refers to is
_axis, which is set before any trace is created and never replaced. -/
def wave {V : Type} (val : NumType → Word → V) (absf : V → V) (p : Plot) (s : St) (l : Loaded) (step : Nat) : List V :=
  if l.isAxis then (axisOf val p l).getWave absf step
  else Trace.getWave ⟨l.data.map (val l.num), s.axis.map (axisOf val p)⟩ step

/-- plot_data.py 938-942: the columns. `if self._axis` is the length of the axis (raw_classes.py 219-223), never 0. -/
def columnsOf (p : Plot) (s : St) (columns : Option (List Str)) : List Str :=
  match columns with
  | none => p.info.map Info.name
  | some cs =>
    match s.axis, p.info with
    | some _, i0 :: _ => if i0.name ∈ cs then cs else i0.name :: cs
    | _, _ => cs

/-- plot_data.py 925: the argument `step`: -1, one step, or a list. -/
inductive Which where
  | all
  | one (k : Nat)
  | list (ks : List Nat)
  deriving DecidableEq, Repr

/-- plot_data.py 944-949 -/
def stepsToRead {V : Type} [DecidableEq V] (steps : Option (List (Step V))) (kw : List (Str × V)) : Which → List Nat
  | .all => getSteps steps kw
  | .one k => [k]
  | .list ks => ks

/-- plot_data.py 961-965: the columns of one step added to the data. -/
def exportCols {V : Type} [DecidableEq V] (val : NumType → Word → V) (absf : V → V) (p : Plot) (n : Option Nat) (step : Nat) :
    List Str → St → List (Str × List V) → Except Err (St × List (Str × List V))
  | [], s, d => .ok (s, d)
  | col :: cols, s, d =>
    match getTrace val p n s col with
    | .error e => .error e
    | .ok (l, s') => exportCols val absf p n step cols s' (put d col ((d.lookup col).getD [] ++ wave val absf p s' l step))

/-- plot_data.py 960-965: the loop over the steps. -/
def exportLoop {V : Type} [DecidableEq V] (val : NumType → Word → V) (absf : V → V) (p : Plot) (n : Option Nat) (cols : List Str) :
    List Nat → St → List (Str × List V) → Except Err (St × List (Str × List V))
  | [], s, d => .ok (s, d)
  | k :: ks, s, d =>
    match exportCols val absf p n k cols s d with
    | .error e => .error e
    | .ok (s', d') => exportLoop val absf p n cols ks s' d'

/-- plot_data.py 925-972: export(columns, step, **kwargs): the data and the state of the plot afterwards. step_columns is always empty
(951-956), so the loops at 966-971 do nothing. -/
def export' {W V : Type} [DecidableEq V] [DecidableEq W] (val : NumType → Word → V) (absf : V → V) (p : Plot) (steps : Option (List (Step W)))
    (s : St) (columns : Option (List Str)) (which : Which) (kw : List (Str × W)) : Except Err (St × List (Str × List V)) :=
  match readTraceData val p (steps.map List.length) s (columnsOf p s columns) with
  | .error e => .error e
  | .ok s' => exportLoop val absf p (steps.map List.length) (columnsOf p s columns) (stepsToRead steps kw which) s' []

/-- `separator.join(l)` -/
def joinWith (sep : Str) : List Str → Str
  | [] => []
  | [a] => a
  | a :: b :: l => a ++ sep ++ joinWith sep (b :: l)

/-- plot_data.py 1024: one row; an IndexError when a column is shorter. -/
def csvRow {V : Type} (showV : V → Str) (i : Nat) : List (Str × List V) → Except Err (List Str)
  | [] => .ok []
  | (_, xs) :: d =>
    match xs[i]? with
    | none => .error .index
    | some x => match csvRow showV i d with
      | .error e => .error e
      | .ok r => .ok (showV x :: r)

/-- plot_data.py 1023-1024: the rows. -/
def csvRows {V : Type} (showV : V → Str) (sep : Str) (d : List (Str × List V)) : List Nat → Except Err Str
  | [] => .ok []
  | i :: is =>
    match csvRow showV i d with
    | .error e => .error e
    | .ok r => match csvRows showV sep d is with
      | .error e => .error e
      | .ok t => .ok (joinWith sep r ++ '\n' :: t)

/-- plot_data.py 1017-1024: the text of the CSV file written without pandas. `list(data.keys())[0]` is an IndexError without columns. -/
def csvText {V : Type} (showV : V → Str) (sep : Str) (d : List (Str × List V)) : Except Err Str :=
  match d with
  | [] => .error .index
  | (_, first) :: _ =>
    match csvRows showV sep d (List.range first.length) with
    | .error e => .error e
    | .ok t => .ok (joinWith sep (d.map Prod.fst) ++ '\n' :: t)

end Model.RawSteps
