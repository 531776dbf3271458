import Verif.Model.LogFile
import Verif.Model.SplitLine
import Verif.Model.RawSteps
/-
QspiceLogReader (spicelib/log/qspice_log_reader.py 58-175): the steps of a QSPICE log (67-92) and the measurements of a .meas file (139-175).
The text of the files is taken after decoding and newline translation; `\d` is the ASCII digits.

Not modelled: the run of QPOST that produces the .meas file (98-137), logging.
-/
namespace Model.QspiceLog
open Model.Regex
open Model.PyStr (isSpace parseInt showNat)
open Model.CompLine (WordClass)
open Model.Export (fileLines group lits)
open Model.LogData (Name Dict lower)
open Model.LogRead (Steps qspiceStep put)
open Model.SplitLine (Val split)

inductive Err where
  | assertion | value | index
  deriving DecidableEq, Repr

/-! ### The log -/

/-- qspice_log_reader.py 66 -/
def stepRe : Re := .seq (.star (.cls isSpace)) Model.RawSteps.stepQ

/-- qspice_log_reader.py 70-93: the loop over the lines. qspiceStep is `none` if the number is wrong (AssertionError, 77) or if a token has two
equal signs (ValueError, 84). -/
def stepLines {V : Type} (conv : Str → V) : List Str → Steps V → Except Err (Steps V)
  | [], s => .ok s
  | l :: ls, s =>
    match exec stepRe l with
    | none => stepLines conv ls s
    | some m =>
      match parseInt (group m .number) with
      | none => .error .value
      | some no =>
        if (s.count : Int) + 1 ≠ no then .error .assertion
        else match qspiceStep conv s no.toNat (group m .params) with
          | none => .error .value
          | some s' => stepLines conv ls s'

/-! ### The .meas file -/

/-- qspice_log_reader.py 148; the groups are called designator, value and params here. -/
def measRe (w : WordClass) : Re :=
  lits ".meas ".toList (.seq (.grp .designator (plus (.cls w.word))) (lits " ".toList (.seq (.grp .value (plus (.cls w.word)))
    (lits " ".toList (.seq (.grp .params (.star (.cls (fun c => c ≠ '\n')))) .eol)))))

structure St where
  name : Option Name
  headers : Option (List Name)
  dataset : Dict (List Val)
  count : Nat

/-- qspice_log_reader.py 157-166: a `.meas` line. -/
def title (s : St) (token1 token2 : Str) : St :=
  { s with headers := none, name := some (if token1 = "tran".toList ∨ token1 = "ac".toList ∨ token1 = "dc".toList ∨ token1 = "op".toList then token2 else token1) }

/-- qspice_log_reader.py 172-177: the titles of the columns; the assignments to headers[1] and headers[0] may raise IndexError. -/
def newHeaders (stepped : Bool) (name : Name) (n : Nat) : Except Err (List Name) :=
  if stepped then
    if n ≤ 1 then .error .index
    else .ok ("step".toList :: ((List.range (n - 1)).map (fun i => name ++ '_' :: showNat i)).set 0 name)
  else if n = 0 then .error .index
  else .ok (((List.range n).map (fun i => name ++ '_' :: showNat i)).set 0 name)

/-- qspice_log_reader.py 179-180 -/
def clear : List Name → Dict (List Val) → Dict (List Val)
  | [], d => d
  | t :: ts, d => clear ts (put (lower t) [] d)

/-- qspice_log_reader.py 182-183: `self.dataset[title.lower()].append(values[k])`; the column exists. -/
def append : List Name → List Val → Dict (List Val) → Except Err (Dict (List Val))
  | [], _, d => .ok d
  | _ :: _, [], _ => .error .index
  | t :: ts, v :: vs, d => append ts vs (put (lower t) ((d.lookup (lower t)).getD [] ++ [v]) d)

/-- qspice_log_reader.py 171-180: the titles, made with the first row. -/
def header (stepped : Bool) (s : St) (name : Name) (values : List Val) : Except Err (List Name × Dict (List Val)) :=
  match s.headers with
  | some hs => .ok (hs, s.dataset)
  | none =>
    match newHeaders stepped name values.length with
    | .error e => .error e
    | .ok hs => .ok (hs, clear hs s.dataset)

/-- qspice_log_reader.py 169-183: a line of values. -/
def values (stepped : Bool) (s : St) (name : Name) (line : Str) : Except Err St :=
  match split line with
  | none => .error .value
  | some vs =>
    match header stepped s name vs with
    | .error e => .error e
    | .ok (hs, d) =>
      match append hs vs d with
      | .error e => .error e
      | .ok d' => .ok { s with headers := some hs, dataset := d', count := s.count + 1 }

/-- qspice_log_reader.py 155-184: one line. -/
def line (w : WordClass) (stepped : Bool) (s : St) (l : Str) : Except Err St :=
  match exec (measRe w) l with
  | some m => .ok (title s (group m .designator) (group m .value))
  | none =>
    match s.name with
    | none => .ok s
    | some name => values stepped s name l

/-- qspice_log_reader.py 153-184: the loop. -/
def lines (w : WordClass) (stepped : Bool) : List Str → St → Except Err St
  | [], s => .ok s
  | l :: ls, s =>
    match line w stepped s l with
    | .error e => .error e
    | .ok s' => lines w stepped ls s'

/-- qspice_log_reader.py 139-184: parse_meas_file, on a dataset and a number of measurements. -/
def parseMeas (w : WordClass) (stepped : Bool) (d : Dict (List Val)) (count : Nat) (text : Str) : Except Err (Dict (List Val) × Nat) :=
  match lines w stepped (fileLines text) ⟨none, none, d, count⟩ with
  | .error e => .error e
  | .ok s => .ok (s.dataset, s.count)

structure Result (V : Type) where
  steps : Steps V
  dataset : Dict (List Val)
  count : Nat

/-- qspice_log_reader.py 58-96: the constructor; `meas` is the text of the file written by QPOST (none: read_measures is false). -/
def readLog {V : Type} (w : WordClass) (conv : Str → V) (given : Dict (List V)) (log : Str) (meas : Option Str) : Except Err (Result V) :=
  match stepLines conv (fileLines log) (Steps.new given) with
  | .error e => .error e
  | .ok s =>
    match meas with
    | none => .ok ⟨s, [], 0⟩
    | some text =>
      match parseMeas w (decide (s.count > 0)) [] 0 text with
      | .error e => .error e
      | .ok (d, n) => .ok ⟨s, d, n⟩

end Model.QspiceLog
