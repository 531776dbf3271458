import Verif.Model.LogRead
import Verif.Model.Export
/-
LTSpiceLogReader.__init__ (spicelib/log/ltsteps.py 296-461) on the text of a log file, with the Fourier tables (219-240, 325-368) and the
single-line measurements of a simulation without steps (305-317, 395-415). The text is taken after decoding and newline translation.

Not modelled: measure_count, the detection of the encoding (C43), and logging.
-/
namespace Model.LogFile
open Model.PyStr (strip rstripChar isSpace)
open Model.Regex
open Model.CompLine (lit sp dot WordClass words)
open Model.Export (fileLines group)
open Model.LogData (Name Dict lower)
open Model.LogRead (Steps stepLine splitOn put MLine readMeasures)

/-- How numbers are read: float(text), int(text) (`none` is the ValueError), and whole numbers as floats. -/
structure Numbers (F : Type) where
  float : Str → Option F
  int : Str → Option Int
  ofInt : Int → F

inductive Err where
  | value | index | attribute
  deriving DecidableEq, Repr

/-- `line.strip('\r\n')` -/
def stripEol (s : Str) : Str :=
  ((s.dropWhile (fun c => c = '\r' || c = '\n')).reverse.dropWhile (fun c => c = '\r' || c = '\n')).reverse

/-- `line.startswith(p)` -/
def starts (p line : Str) : Bool := p.isPrefixOf line

/-! ### Measurements of a simulation without steps -/

/-- Literal characters in either case (re.IGNORECASE), given as capital letters. -/
def ilits : Str → Re → Re
  | [], r => r
  | c :: cs, r => .seq (.cls (fun d => d = c || d.toUpper = c)) (ilits cs r)

/-- The class of the group `value` (316): digits, `(inf)E+-()dB,°`, the range from `(` to `/` (eight characters) and `\w`. -/
def valueChar (w : WordClass) (c : Char) : Bool :=
  w.word c || c = '(' || c = ')' || c = '*' || c = '+' || c = ',' || c = '-' || c = '.' || c = '/' || c = '°'

/-- `[\d\.E+-]` with re.IGNORECASE (316). -/
def numChar (c : Char) : Bool := c.isDigit || c = '.' || c = 'E' || c = 'e' || c = '+' || c = '-'

/-- ltsteps.py 316: ` FROM (?P<from>…) TO (?P<to>…)`; the groups are called formula1 and formula2 here. -/
def fromRe : Re := ilits " FROM ".toList (.seq (.grp .formula1 (.star (.cls numChar))) (ilits " TO ".toList (.grp .formula2 (.star (.cls numChar)))))

/-- ltsteps.py 316: ` at (?P<at>…)`; the group is called formula3 here. -/
def atRe : Re := ilits " AT ".toList (.grp .formula3 (.star (.cls numChar)))

/-- ltsteps.py 316: the whole expression; the group `name` is called designator here. -/
def measRe (w : WordClass) : Re :=
  .seq (.grp .designator (plus (.cls w.word)))
    (.seq (opt (.seq (lit ':') (.seq (plus sp) (.star dot))))
      (.seq (lit '=') (.seq (.grp .value (plus (.cls (valueChar w)))) (opt (.alt fromRe atRe)))))

/-- ltsteps.py 399-410: the columns of a measurement and their texts. -/
def measColumns (m : St) : List (Name × Str) :=
  let name := group m .designator
  if group m .formula1 ≠ [] then
    [(name, group m .value), (name ++ "_FROM".toList, group m .formula1), (name ++ "_TO".toList, group m .formula2)]
  else if group m .formula3 ≠ [] then [(name, group m .value), (name ++ "_at".toList, group m .formula3)]
  else [(name, group m .value)]

/-- ltsteps.py 395-415: a line in a log without steps (so far). -/
def measure {V : Type} (w : WordClass) (conv : Str → V) (d : Dict (List V)) (line : Str) : Dict (List V) :=
  match exec (measRe w) line with
  | none => d
  | some m => (measColumns m).foldl (fun d c => put (lower c.1) [conv c.2] d) d

/-! ### Fourier tables -/

/-- ltsteps.py 219-226 -/
structure Harmonic (F : Type) where
  number : Int
  frequency : F
  component : F
  normalized : F
  phase : F
  normPhase : F

/-- ltsteps.py 243-250; a signal that was never named is None. -/
structure Fourier (F : Type) where
  signal : Option Str
  periods : F
  dc : F
  phd : Option F
  thd : Option F
  harmonics : List (Harmonic F)
  step : Int

/-- `f(tokens[i])`: IndexError or ValueError. -/
def need {A : Type} (f : Str → Option A) (ts : List Str) (i : Nat) : Except Err A :=
  match ts[i]? with
  | none => .error .index
  | some t => match f t with
    | none => .error .value
    | some x => .ok x

/-- ltsteps.py 229-238: HarmonicData.from_line -/
def fromLine {F : Type} (n : Numbers F) (line : Str) : Except Err (Harmonic F) := do
  let ts := words [] line
  let k ← need n.int ts 0
  let f ← need n.float ts 1
  let c ← need n.float ts 2
  let m ← need n.float ts 3
  let p ← need (fun t => n.float (rstripChar '°' t)) ts 4
  let q ← need (fun t => n.float (rstripChar '°' t)) ts 5
  pure ⟨k, f, c, m, p, q⟩

/-- `\d+.\d+` as a group. -/
def numberRe : Re := .grp .number (.seq (plus (.cls Char.isDigit)) (.seq dot (plus (.cls Char.isDigit))))

/-- `re.search(r"\d+.\d+", line)` -/
def searchNumber : Str → Option Str
  | [] => none
  | c :: cs => match exec numberRe (c :: cs) with
    | some m => some (group m .number)
    | none => searchNumber cs

/-- ltsteps.py 353, 356: `float(re.search(…).group())` -/
def percent {F : Type} (n : Numbers F) (line : Str) : Except Err F :=
  match searchNumber line with
  | none => .error .attribute
  | some t => match n.float t with
    | none => .error .value
    | some x => .ok x

/-- `line.split(pat)[-1]`: `skip` characters of a separator remain, `cur` is the part being read. -/
def lastPart (pat : Str) : Nat → Str → Str → Str
  | _, cur, [] => cur
  | skip + 1, cur, _ :: cs => lastPart pat skip cur cs
  | 0, cur, c :: cs => if pat.isPrefixOf (c :: cs) then lastPart pat (pat.length - 1) [] cs else lastPart pat 0 (cur ++ [c]) cs

/-! ### The file -/

/-- Where the reader is: between tables, at the second title line of a Fourier table, or in its rows (345-361). -/
inductive Mode (F : Type) where
  | normal
  | skip
  | table (phd thd : Option F) (harmonics : List (Harmonic F))

structure St (V F : Type) where
  steps : Steps V
  dataset : Dict (List V)
  signal : Option Str
  periods : F
  dc : F
  fourier : List (Option Str × List (Fourier F))
  mode : Mode F

/-- ltsteps.py 364-368: `self.fourier[signal].append(…)` or a new list. -/
def record {F : Type} (k : Option Str) (x : Fourier F) : List (Option Str × List (Fourier F)) → List (Option Str × List (Fourier F))
  | [] => [(k, [x])]
  | (k', l) :: d => if k' = k then (k', l ++ [x]) :: d else (k', l) :: record k x d

/-- ltsteps.py 359-368: the end of a Fourier table. -/
def endTable {V F : Type} (s : St V F) (phd thd : Option F) (hs : List (Harmonic F)) : St V F :=
  { s with fourier := record s.signal ⟨s.signal, s.periods, s.dc, phd, thd, hs, (s.steps.count : Int) - 1⟩ s.fourier, mode := .normal }

/-- ltsteps.py 349-363: one line of a Fourier table. -/
def tableLine {V F : Type} (n : Numbers F) (s : St V F) (phd thd : Option F) (hs : List (Harmonic F)) (raw : Str) : Except Err (St V F) :=
  let line := stripEol raw
  if starts "Total Harmonic".toList line then
    match percent n line with
    | .error e => .error e
    | .ok x => .ok { s with mode := .table phd (some x) hs }
  else if starts "Partial Harmonic".toList line then
    match percent n line with
    | .error e => .error e
    | .ok x => .ok { s with mode := .table (some x) thd hs }
  else if line = [] then .ok (endTable s phd thd hs)
  else match fromLine n line with
    | .error e => .error e
    | .ok h => .ok { s with mode := .table phd thd (hs ++ [h]) }

/-- ltsteps.py 395-415 at the end of the body of the loop. -/
def finish {V F : Type} (w : WordClass) (conv : Str → V) (s : St V F) (line : Str) : St V F :=
  if s.steps.count = 0 then { s with dataset := measure w conv s.dataset line } else s

/-- ltsteps.py 329-335 -/
def periodsLine {V F : Type} (n : Numbers F) (w : WordClass) (conv : Str → V) (s : St V F) (line : Str) : Except Err (St V F) :=
  let t := strip ((splitOn '=' (stripEol line)).getLastD [])
  if t = "all".toList then .ok (finish w conv { s with periods := n.ofInt (-1) } line)
  else match n.float t with
    | none => .error .value
    | some x => .ok (finish w conv { s with periods := x } line)

/-- ltsteps.py 340-343 -/
def dcLine {V F : Type} (n : Numbers F) (w : WordClass) (conv : Str → V) (s : St V F) (line : Str) : Except Err (St V F) :=
  match n.float (strip ((splitOn ':' (stripEol line)).getLastD [])) with
  | none => .error .value
  | some x => .ok (finish w conv { s with dc := x } (stripEol line))

/-- ltsteps.py 370-388 -/
def stepLineOf {V F : Type} (w : WordClass) (conv : Str → V) (s : St V F) (line : Str) : Except Err (St V F) :=
  match stepLine conv s.steps line with
  | none => .error .value
  | some st => .ok (finish w conv { s with steps := st } line)

/-- ltsteps.py 325-415: one turn of the loop between tables; `none` is the `break` (or the return) at "Measurement:". After a Fourier table `line` is
empty and the expression of 316 does not match it. -/
def normalLine {V F : Type} (n : Numbers F) (w : WordClass) (conv : Str → V) (s : St V F) (line : Str) : Except Err (Option (St V F)) :=
  if strip line = [] then .ok (some (finish w conv s line))
  else if starts "N-Period".toList line then (periodsLine n w conv s line).map some
  else if starts "Fourier components of".toList line then
    .ok (some (finish w conv { s with signal := some (strip (lastPart " of ".toList 0 [] (stripEol line))) } (stripEol line)))
  else if starts "DC component:".toList line then (dcLine n w conv s line).map some
  else if starts "Harmonic".toList line then .ok (some { s with mode := .skip })
  else if starts ".step".toList line then (stepLineOf w conv s line).map some
  else if starts "Measurement:".toList line then .ok none
  else .ok (some (finish w conv s line))

/-- ltsteps.py 325-415: one line, wherever the reader is. -/
def line {V F : Type} (n : Numbers F) (w : WordClass) (conv : Str → V) (s : St V F) (l : Str) : Except Err (Option (St V F)) :=
  match s.mode with
  | .normal => normalLine n w conv s l
  | .skip => .ok (some { s with mode := .table none none [] })
  | .table phd thd hs => (tableLine n s phd thd hs l).map some

/-- The end of the file inside of a table: `fin.readline()` is empty, which ends the table. -/
def atEnd {V F : Type} (s : St V F) : St V F :=
  match s.mode with
  | .normal => s
  | .skip => endTable s none none []
  | .table phd thd hs => endTable s phd thd hs

/-- ltsteps.py 320-415: the first loop; the lines from "Measurement:" on are left. -/
def lines {V F : Type} (n : Numbers F) (w : WordClass) (conv : Str → V) : List Str → St V F → Except Err (St V F × List Str)
  | [], s => .ok (atEnd s, [])
  | l :: ls, s =>
    match line n w conv s l with
    | .error e => .error e
    | .ok none => .ok (s, l :: ls)
    | .ok (some s') => lines n w conv ls s'

/-- ltsteps.py 422-435: what a line of the measurement part is. -/
def toMLine (l : Str) : MLine :=
  if starts "Measurement: ".toList (stripEol l) then .title ((stripEol l).drop 13) else .tokens (splitOn '\t' (stripEol l))

/-- What the reader knows afterwards: stepset and step_count, dataset, fourier. -/
structure Result (V F : Type) where
  steps : Steps V
  dataset : Dict (List V)
  fourier : List (Option Str × List (Fourier F))

/-- ltsteps.py 296-461: LTSpiceLogReader(file, read_measures, step_set). -/
def readLog {V F : Type} (n : Numbers F) (w : WordClass) (conv : Str → V) (given : Dict (List V)) (measures : Bool) (text : Str) : Except Err (Result V F) :=
  match lines n w conv (fileLines text) ⟨Steps.new given, [], none, n.ofInt 0, n.ofInt 0, [], .normal⟩ with
  | .error e => .error e
  | .ok (s, rest) =>
    if measures then
      match readMeasures conv (fun t => (n.int t).isSome) s.dataset (rest.map toMLine) with
      | none => .error .index
      | some d => .ok ⟨s.steps, d, s.fourier⟩
    else .ok ⟨s.steps, s.dataset, s.fourier⟩

end Model.LogFile
