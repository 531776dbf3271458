import Verif.Model.PyStr
import Verif.Model.AscInstr
/-
The regular expression all editors use to find `name = value` pairs (spicelib/editor/base_editor.py 39-40, PARAM_REGEX(r"\w+") with
re.IGNORECASE) and the parameter functions of the schematic editors built on it: asc_editor.py 535-596 and qsch_editor.py
1035-1065, 1088-1135.

The expression is (?P<name>\w+)\s*[= ]\s*(?P<value>(?P<cb>\{)?(?(cb)[^\}]*\}|(?P<st>\")?(?(st)[^\"]*\"|[\d\.\+\-Ee]+[a-zA-Z%]*))).
Its backtracking never finds a different match than the one written here: the name is the whole run of word characters (a shorter
one is followed by a word character, not by a blank or `=`); if an `=` follows the blanks it is the separator; otherwise the blanks
must contain a space; a brace or quote without its partner is no value.

Simplification: \w, \d and [a-zA-Z] are the ASCII characters. Values are text (numbers go through format_eng first, Model.FloatUnit).
-/
namespace Model.ParamRegex
open Model.PyStr

abbrev Str := List Char

/-- `\w` -/
def wordChar (c : Char) : Bool := c.isAlphanum || c = '_'
/-- `[\d\.\+\-Ee]` -/
def numChar (c : Char) : Bool := c.isDigit || c = '.' || c = '+' || c = '-' || c = 'E' || c = 'e'
/-- `[a-zA-Z%]` -/
def unitChar (c : Char) : Bool := c.isAlpha || c = '%'

/-- The group `value` at the start of a text, and what follows. -/
def value? (s : Str) : Option (Str × Str) :=
  match s with
  | [] => none
  | c :: r =>
    if c = '{' then
      match r.dropWhile (· ≠ '}') with
      | [] => none
      | d :: rest => some (c :: (r.takeWhile (· ≠ '}') ++ [d]), rest)
    else if c = '"' then
      match r.dropWhile (· ≠ '"') with
      | [] => none
      | d :: rest => some (c :: (r.takeWhile (· ≠ '"') ++ [d]), rest)
    else if numChar c then
      let d := s.takeWhile numChar
      let r := s.dropWhile numChar
      some (d ++ r.takeWhile unitChar, r.dropWhile unitChar)
    else none

/-- `\s*[= ]\s*`: what was matched and what follows. -/
def sep? (s : Str) : Option (Str × Str) :=
  let a := s.takeWhile isSpace
  match s.dropWhile isSpace with
  | '=' :: r => some (a ++ '=' :: r.takeWhile isSpace, r.dropWhile isSpace)
  | r => if ' ' ∈ a then some (a, r) else none

/-- separator and value -/
def sepValue? (s : Str) : Option (Str × Str × Str) :=
  match sep? s with
  | none => none
  | some (a, r) => match value? r with
    | none => none
    | some (v, rest) => some (a, v, rest)

/-- One match object: group("name"), group("value"), span("value"), and where the whole match starts (it ends with the value). -/
structure Match where
  name : Str
  value : Str
  start : Nat
  stop : Nat
  first : Nat
  deriving DecidableEq, Repr

/-- finditer; `skip` characters belong to the match found last, `pos` is the position in the text. -/
def scan : Nat → Nat → Str → List Match
  | _, _, [] => []
  | k + 1, pos, _ :: cs => scan k (pos + 1) cs
  | 0, pos, c :: cs =>
    if wordChar c then
      let name := (c :: cs).takeWhile wordChar
      match sepValue? ((c :: cs).dropWhile wordChar) with
      | none => scan 0 (pos + 1) cs
      | some (a, v, _) =>
        let start := pos + name.length + a.length
        ⟨name, v, start, start + v.length, pos⟩ :: scan (name.length + a.length + v.length - 1) (pos + 1) cs
    else scan 0 (pos + 1) cs

/-- `search_expression.finditer(text)` -/
def findIter (s : Str) : List Match := scan 0 0 s

/-- `text.upper().startswith(".PARAM")` -/
def isParam (s : Str) : Bool := ".PARAM".toList.isPrefixOf (upper s)

/-- The first match with that name, in any letter case. -/
def named (p : Str) (ms : List Match) : Option Match := ms.find? (fun m => upper m.name = upper p)

/-- `text[:start] + value + text[stop:]` -/
def splice (s : Str) (start stop : Nat) (v : Str) : Str := s.take start ++ v ++ s.drop stop

/-- `sorted(param_names)`: strings are compared by code points. -/
def sorted (l : List Str) : List Str := l.mergeSort (fun a b => decide (a ≤ b))

/-! ### LTspice schematics -/
open Model.Asc (Text Sch)

/-- asc_editor.py 535-546: _get_param_named; position in the list of directives and the match. -/
def ascFind (p : Str) : List Text → Option (Nat × Match)
  | [] => none
  | t :: l =>
    let rest := (ascFind p l).map (fun r => (r.1 + 1, r.2))
    if t.type = .comment then rest
    else if isParam t.text then
      match named p (findIter t.text) with
      | some m => some (0, m)
      | none => rest
    else rest

/-- asc_editor.py 562-567; `none` is the ParameterNotFoundError. -/
def ascGet (s : Sch) (p : Str) : Option Str := (ascFind p s.directives).map (fun r => r.2.value)

/-- asc_editor.py 552-559: the names found in one directive -/
def ascTextNames (t : Text) : List Str :=
  if t.type = .comment then [] else if isParam t.text then (findIter t.text).map (fun m => upper m.name) else []

/-- asc_editor.py 548-560 -/
def ascNames (s : Sch) : List Str := sorted (s.directives.flatMap ascTextNames)

inductive Change where
  | updated
  | added
  deriving DecidableEq, Repr

/-- asc_editor.py 569-596, with permission; the Change is what is recorded in the journal. -/
def ascSet (s : Sch) (p v : Str) : Except AscInstr.Err (Sch × Change) :=
  match ascFind p s.directives with
  | some (i, m) => .ok ({ s with directives := s.directives.modify i (fun t => { t with text := splice t.text m.start m.stop v }) }, .updated)
  | none =>
    match AscInstr.textSpace s with
    | .error e => .error e
    | .ok (x, y) =>
      .ok ({ s with directives := s.directives ++ [{ x, y, text := ".param ".toList ++ p ++ '=' :: v, size := 2, type := .directive }] }, .added)

/-! ### QSPICE schematics -/

/-- A text tag of a QSPICE schematic: whether its comment attribute is 1, and its text. -/
structure QText where
  comment : Bool
  text : Str
  deriving DecidableEq, Repr

/-- QSCH_TEXT_INSTR_QUALIFIER (qsch_editor.py 94) -/
def qualifier : Str := "ï»¿".toList

/-- `line.lstrip(QSCH_TEXT_INSTR_QUALIFIER)`: all leading characters that are among the three. -/
def unqualify (s : Str) : Str := s.dropWhile (fun c => qualifier.contains c)

/-- qsch_editor.py 1035-1049 -/
def qFind (p : Str) : List QText → Option (Nat × Match)
  | [] => none
  | t :: l =>
    let rest := (qFind p l).map (fun r => (r.1 + 1, r.2))
    if t.comment then rest
    else if isParam (unqualify t.text) then
      match named p (findIter (unqualify t.text)) with
      | some m => some (0, m)
      | none => rest
    else rest

/-- qsch_editor.py 1090-1097 -/
def qGet (ts : List QText) (p : Str) : Option Str := (qFind p ts).map (fun r => r.2.value)

/-- qsch_editor.py 1056-1064: the names found in one text -/
def qTextNames (t : QText) : List Str :=
  if t.comment then [] else if isParam (unqualify t.text) then (findIter (unqualify t.text)).map (fun m => upper m.name) else []

/-- qsch_editor.py 1051-1065 -/
def qNames (ts : List QText) : List Str := sorted (ts.flatMap qTextNames)

/-- qsch_editor.py 1099-1135: the spans found in the text without the qualifier are moved by its length (1115-1116). Reading the new
text tag back from its own text (1127-1129) is Model.Qsch; here the text is taken as it is. -/
def qSet (ts : List QText) (p v : Str) : List QText × Change :=
  match qFind p ts with
  | some (i, m) =>
    (ts.modify i (fun t => { t with text := splice t.text (m.start + qualifier.length) (m.stop + qualifier.length) v }), .updated)
  | none => (ts ++ [⟨false, qualifier ++ ".param ".toList ++ p ++ '=' :: v⟩], .added)

end Model.ParamRegex
