import Verif.Model.PyStr
import Verif.Model.Export
/-
spicelib/log/semi_dev_op_reader.py 89-127: opLogReader, the operating points of the semiconductor devices in an LTspice log.

`conv` stands for 120-123: float(val), or the text itself when that fails. The file is a text whose lines end in '\n' (universal newlines).
-/
namespace Model.OpLog
open Model.PyStr
open Model.Export (fileLines)
abbrev Str := List Char

/-- Parameters of a device, devices of a section, sections of the log: Python dictionaries. -/
abbrev Dict (A : Type) := List (Str × A)
abbrev Data (V : Type) := Dict (Dict (Dict V))

inductive Err where
  | attribute  -- `where.lower()` on None
  | key
  deriving DecidableEq, Repr

/-- `d[k] = v` -/
def put {A : Type} (d : Dict A) (k : Str) (v : A) : Dict A :=
  match d with
  | [] => [(k, v)]
  | (k', v') :: d => if k' = k then (k', v) :: d else (k', v') :: put d k v

/-- `d[k]` changed in place by `f`; none is a KeyError. -/
def change {A : Type} (d : Dict A) (k : Str) (f : A → Option A) : Option (Dict A) :=
  match d with
  | [] => none
  | (k', v') :: d => if k' = k then (f v').map (fun v => (k', v) :: d) else (change d k f).map (fun d => (k', v') :: d)

/-- 90, 104: `^\s*--- (.*) ---\s*$` on a line: what is between the dashes. -/
def title (line : Str) : Option Str :=
  let s := strip line
  if "--- ".toList.isPrefixOf s ∧ " ---".toList.isSuffixOf s ∧ 8 ≤ s.length then some ((s.drop 4).take (s.length - 8)) else none

/-- `re.split(r'\s+', s)`: a separator at an end gives an empty column. -/
def columns : Str → List Str
  | [] => [[]]
  | c :: s =>
    if isSpace c then
      match s with
      | [] => [[], []]
      | d :: _ => if isSpace d then columns s else [] :: columns s
    else match columns s with
      | [] => [[c]]
      | w :: ws => (c :: w) :: ws

/-- `line.rstrip('\r\n')` -/
def rstripEol (s : Str) : Str := (s.reverse.dropWhile (fun c => c = '\r' || c = '\n')).reverse

structure St (V : Type) where
  section_ : Option Str
  devices : List Str
  data : Data V

/-- 118-124: a row of values, device by device. -/
def assignRow {V : Type} (conv : Str → V) (sec param : Str) : List Str → List Str → Data V → Option (Data V)
  | dev :: devs, val :: vals, d =>
    match change d sec (fun ds => change ds dev (fun ps => some (put ps param (conv val)))) with
    | none => none
    | some d' => assignRow conv sec param devs vals d'
  | _, _, d => some d

/-- 103-124: one line of the section. -/
def line {V : Type} (conv : Str → V) (s : St V) (text : Str) : Except Err (St V) :=
  match title text with
  | some t => .ok { s with section_ := some t, data := put s.data (lower t) [] }
  | none =>
    match columns (rstripEol text) with
    | [] => .ok s
    | first :: rest =>
      if rest ≠ [] ∧ (first.getLast? = some ':' ∨ first = "Gmb".toList) then
        if first = "Name:".toList then
          match s.section_ with
          | none => .error .attribute
          | some t =>
            match change s.data (lower t) (fun ds => some (rest.foldl (fun ds dev => put ds dev []) ds)) with
            | none => .error .key
            | some d => .ok { s with devices := rest, data := d }
        else if s.devices ≠ [] ∧ rest.length = s.devices.length then
          match s.section_ with
          | none => .error .attribute
          | some t =>
            match assignRow conv (lower t) (rstripChar ':' first) s.devices rest s.data with
            | none => .error .key
            | some d => .ok { s with data := d }
        else .ok s
      else .ok s

def lines {V : Type} (conv : Str → V) : List Str → St V → Except Err (St V)
  | [], s => .ok s
  | l :: ls, s =>
    match line conv s l with
    | .error e => .error e
    | .ok s' => lines conv ls s'

def header : Str := "Semiconductor Device Operating Points:".toList

/-- 97-101: what follows the line that starts with the header. -/
def afterHeader : List Str → List Str
  | [] => []
  | l :: ls => if header.isPrefixOf l then ls else afterHeader ls

/-- 88-127: opLogReader. -/
def opLogReader {V : Type} (conv : Str → V) (text : Str) : Except Err (Data V) :=
  (lines conv (afterHeader (fileLines text)) ⟨none, [], []⟩).map St.data

end Model.OpLog
