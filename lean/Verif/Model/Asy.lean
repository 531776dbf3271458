import Verif.Model.Asc
/-
LTspice symbol files: spicelib/editor/asy_reader.py, class AsyReader.

Simplifications: the file exists and its encoding is given (48-57: detect_encoding, which refuses a file without `Version ` at the
start of a line, is not modelled); lines are given without their terminators, which every branch strips; logging is left out.
-/
namespace Model.Asy
open Model.PyStr
open Model.Asc (Text Line Shape words alignSet dset linesOf)

abbrev Str := List Char

/-- The fields of AsyReader (38-46) and the pin being read (47). -/
structure St where
  version : Str := "4".toList
  symbolType : Option Str := none
  pins : List Text := []
  lines : List Line := []
  shapes : List Shape := []
  attrs : List (Str × Str) := []
  windows : List Text := []
  pin : Option Text := none
  deriving DecidableEq

/-- `s.split(maxsplit=2)`: at most three parts, the last one with its inner and trailing white space (asy_reader.py 69). -/
def splitTwice (s : Str) : List Str :=
  let s1 := lstrip s
  if s1 = [] then [] else
  let s2 := lstrip (s1.dropWhile (fun c => !isSpace c))
  let w1 := s1.takeWhile (fun c => !isSpace c)
  if s2 = [] then [w1] else
  let s3 := lstrip (s2.dropWhile (fun c => !isSpace c))
  let w2 := s2.takeWhile (fun c => !isSpace c)
  if s3 = [] then [w1, w2] else [w1, w2, s3]

/-- The kinds of lines in the order of the tests (62-178). -/
inductive Kind where
  | window | symattr | version | symbolType | pinattr | pin | figure | arc | text | unknown
  deriving DecidableEq

def kind (s : Str) : Kind :=
  if "WINDOW".toList.isPrefixOf s then .window
  else if "SYMATTR".toList.isPrefixOf s then .symattr
  else if "Version".toList.isPrefixOf s then .version
  else if "SymbolType ".toList.isPrefixOf s then .symbolType
  else if "PINATTR".toList.isPrefixOf s then .pinattr
  else if "PIN".toList.isPrefixOf s then .pin
  else if "LINE".toList.isPrefixOf s ∨ "RECTANGLE".toList.isPrefixOf s ∨ "CIRCLE".toList.isPrefixOf s then .figure
  else if "ARC".toList.isPrefixOf s then .arc
  else if "TEXT ".toList.isPrefixOf s then .text
  else .unknown

/-- 62-67 -/
def readWindow (st : St) (line : Str) : Option St :=
  match words line with
  | [_, num, px, py, al, sz] => do
    let x ← parseInt px
    let y ← parseInt py
    let size ← parseInt sz
    let t ← alignSet { x, y, text := num, size, type := .attribute } al
    some { st with windows := st.windows ++ [t] }
  | _ => none

/-- 77-81: the attribute is stored stripped, a prefix in capital letters. -/
def store (st : St) (ref text : Str) : St :=
  let text := strip text
  let text := if upper ref = "PREFIX".toList then upper text else text
  { st with attrs := dset ref text st.attrs }

/-- 68-81: one word only is ignored, two words give the empty text. -/
def readAttr (st : St) (line : Str) : St :=
  match splitTwice line with
  | [_, ref, text] => store st ref text
  | [_, ref] => store st ref []
  | _ => st

/-- 82-85 -/
def readVersion (st : St) (line : Str) : Option St :=
  match words line with
  | [_, v] => if v = "4".toList ∨ v = "4.0".toList ∨ v = "4.1".toList then some { st with version := v } else none
  | _ => none

/-- 88-92: `line.split(' ', maxsplit=3)` has to give exactly three parts. -/
def readPinAttr (st : St) (line : Str) : Option St :=
  match st.pin, splitOn ' ' line with
  | some p, [_, name, value] => some { st with pin := some { p with text := p.text ++ name ++ '=' :: strip value ++ [';'] } }
  | _, _ => none

/-- 98-120: the alignment and angle of a pin's text. -/
def justify (p : Text) (j : Str) : Text :=
  if j = "NONE".toList then { p with hor := .center, ver := .center, angle := 0 }
  else if j.head? = some 'V' then
    { p with angle := 90, hor := if j = "VRIGHT".toList then .right else .left, ver := if j = "VTOP".toList then .top else .bottom }
  else { p with angle := 0, hor := if j = "RIGHT".toList then .right else .left, ver := if j = "TOP".toList then .top else .bottom }

/-- 93-124: the pin before it is complete. -/
def readPin (st : St) (line : Str) : Option St :=
  match words line with
  | [_, px, py, j, off] => do
    let x ← parseInt px
    let y ← parseInt py
    let size ← parseInt off
    some { st with pins := st.pins ++ st.pin.toList, pin := some (justify { x, y, text := [], size, type := .pin } j) }
  | _ => none

/-- 128-160: "identical to the code in asc_reader.py" (asc_editor.py 414-444). -/
def draw (st : St) (r : Option Model.Asc.Rd) : Option St := r.map (fun r => { st with lines := r.sch.lines, shapes := r.sch.shapes })

/-- The part of the schematic reader's state that those lines use. -/
def canvas (st : St) : Model.Asc.Rd := { sch := { lines := st.lines, shapes := st.shapes }, pending := none }

/-- 162-176: a text is kept as a window when the line has six words. -/
def readText (st : St) (line : Str) : Option St :=
  match words line with
  | [_, px, py, al, sz, t] => do
    let x ← parseInt px
    let y ← parseInt py
    let size ← parseInt sz
    let w ← alignSet { x, y, text := t, size, type := .comment } al
    some { st with windows := st.windows ++ [w] }
  | _ => some st

/-- One line (61-182); none stands for an exception. -/
def step (st : St) (line : Str) : Option St :=
  match kind line with
  | .window => readWindow st line
  | .symattr => some (readAttr st line)
  | .version => readVersion st line
  | .symbolType => some { st with symbolType := some (strip (line.drop 11)) }      -- 86-87
  | .pinattr => readPinAttr st line
  | .pin => readPin st line
  | .figure => draw st (Model.Asc.readFigure (canvas st) line)
  | .arc => draw st (Model.Asc.readArc (canvas st) line)
  | .text => readText st line
  | .unknown => none                                                              -- 177-182

def steps : St → List Str → Option St
  | st, [] => some st
  | st, l :: ls => (step st l).bind (fun st => steps st ls)

/-- 183-184 -/
def finish (st : St) : St := { st with pins := st.pins ++ st.pin.toList, pin := none }

/-- AsyReader(file) (37-184) -/
def read (s : Str) : Option St := (steps {} (linesOf s)).map finish

/-- is_subcircuit (264-266) -/
def isSubcircuit (st : St) : Bool := st.symbolType = some "BLOCK".toList || st.attrs.lookup "Prefix".toList = some "X".toList

/-- The suffixes of 271, tested on the text in small letters. -/
def isLibrary (v : Str) : Bool :=
  [".lib".toList, ".sub".toList, ".cir".toList, ".txt".toList].any (fun e => e.isSuffixOf (lower v))

/-- 272 -/
def libraryAttrs : List Str := ["ModelFile".toList, "SpiceModel".toList, "SpiceLine".toList, "SpiceLine2".toList, "Def_Sub".toList, "Value".toList, "Value2".toList]

/-- get_library (268-275) -/
def getLibrary (st : St) : Option Str :=
  match libraryAttrs.findSome? (fun a => (st.attrs.lookup a).filter isLibrary) with
  | some v => some v
  | none => st.attrs.lookup "SpiceModel".toList

/-- 280 -/
def modelAttrs : List Str := ["Value".toList, "SpiceModel".toList, "Value2".toList, "ModelFile".toList, "SpiceLine".toList, "SpiceLine2".toList, "Def_Sub".toList]

/-- get_model (277-283); none stands for ValueError. -/
def getModel (st : St) : Option Str := modelAttrs.findSome? (fun a => st.attrs.lookup a)

end Model.Asy
