import Verif.Model.PyStr
/-
LTspice schematics: spicelib/editor/asc_editor.py (AscEditor.reset_netlist and save_netlist),
spicelib/editor/ltspice_utils.py and the data classes of spicelib/editor/base_schematic.py.

Simplifications: coordinates are integers; lines are lists of characters without their terminator, and a carriage return is
not a terminator; the files of symbols and sub-circuits (lines 362-366) are not read, so the '_SUBCKT' attribute does not
exist; `\d`, `\s` and letter case in the regular expression of TEXT lines are modelled for ASCII digits, Python's white space
and ASCII letters. `none` stands for an exception (ValueError, AssertionError, IndexError, KeyError, NotImplementedError).
-/
namespace Model.Asc
open Model.PyStr

abbrev Str := List Char

/-! ### Python's split -/

/-- `s.split()`; `cur` is the word being read. -/
def wordsAux : Str → Str → List Str
  | [], cur => if cur = [] then [] else [cur]
  | c :: r, cur =>
    if isSpace c then (if cur = [] then wordsAux r [] else cur :: wordsAux r [])
    else wordsAux r (cur ++ [c])
def words (s : Str) : List Str := wordsAux s []

/-- `s.split(maxsplit=2)` when it gives three parts. -/
def split3 (s : Str) : Option (Str × Str × Str) :=
  let s1 := lstrip s
  let s2 := lstrip (s1.dropWhile (fun c => !isSpace c))
  let s3 := lstrip (s2.dropWhile (fun c => !isSpace c))
  if s3 = [] then none else some (s1.takeWhile (fun c => !isSpace c), s2.takeWhile (fun c => !isSpace c), s3)

/-- An f-string whose parts are separated by one blank. -/
def row : List Str → Str
  | [] => []
  | [w] => w
  | w :: x :: ws => w ++ ' ' :: row (x :: ws)

/-! ### Data -/

/-- HorAlign and VerAlign (base_schematic.py 120-131) -/
inductive Hor where | left | right | center deriving DecidableEq
inductive Ver where | top | center | bottom deriving DecidableEq
/-- TextTypeEnum (base_schematic.py 134-141) -/
inductive TextType where | null | comment | directive | label | attribute | pin deriving DecidableEq

/-- class Text (base_schematic.py 246-256); angles are degrees. -/
structure Text where
  x : Int
  y : Int
  text : Str
  size : Int := 1
  type : TextType := .null
  hor : Hor := .left
  ver : Ver := .center
  angle : Nat := 0
  visible : Bool := true
  deriving DecidableEq

/-- asc_text_align_set (ltspice_utils.py 68-93) -/
def alignSet (t : Text) (alignment : Str) : Option Text :=
  let a := lower alignment
  let t := { t with hor := .center, ver := .center }
  let t' : Option Text :=
    if a = "left".toList ∨ a = "vleft".toList then some { t with hor := .left }
    else if a = "center".toList ∨ a = "vcenter".toList then some t
    else if a = "right".toList ∨ a = "vright".toList then some { t with hor := .right }
    else if a = "top".toList ∨ a = "vtop".toList then some { t with ver := .top }
    else if a = "bottom".toList ∨ a = "vbottom".toList then some { t with ver := .bottom }
    else if a = "invisible".toList ∨ a = "vinvisible".toList then some { t with visible := false }
    else none
  t'.map (fun t => { t with angle := if a.head? = some 'v' then 90 else 0 })

/-- asc_text_align_get (ltspice_utils.py 96-118) -/
def alignGet (t : Text) : Str :=
  let ans : Str :=
    if !t.visible then "Invisible".toList
    else if t.ver = .center then
      if t.hor = .right then "Right".toList else if t.hor = .center then "Center".toList else "Left".toList
    else if t.ver = .top then "Top".toList
    else if t.ver = .bottom then "Bottom".toList
    else "Left".toList
  if t.angle = 90 then 'V' :: ans else ans

/-- ASC_ROTATION_DICT (ltspice_utils.py 41-50): the values of ERotation, mirrored ones are 360 higher. -/
def rotations : List (Str × Nat) :=
  [("R0".toList, 0), ("R90".toList, 90), ("R180".toList, 180), ("R270".toList, 270),
   ("M0".toList, 360), ("M90".toList, 450), ("M180".toList, 540), ("M270".toList, 630)]

def rotOf (s : Str) : Option Nat := rotations.lookup s
/-- ASC_INV_ROTATION_DICT (line 51) -/
def rotName (r : Nat) : Option Str := (rotations.map (fun p => (p.2, p.1))).lookup r

/-- A value in the attribute dictionary of a component. -/
inductive AttrVal where
  | text (t : Text)
  | str (s : Str)
  deriving DecidableEq

/-- class AscComponent: symbol, position, rotation, reference and the attributes in dictionary order. -/
structure Comp where
  symbol : Str
  x : Int
  y : Int
  rot : Nat
  reference : Str := []
  attrs : List (Str × AttrVal) := []
  deriving DecidableEq

/-- class Line with its style pattern (base_schematic.py 144-167). -/
structure Line where
  x1 : Int
  y1 : Int
  x2 : Int
  y2 : Int
  pattern : Str := []
  deriving DecidableEq

/-- class Shape (base_schematic.py 212-225). -/
structure Shape where
  name : Str
  points : List (Int × Int)
  pattern : Str := []
  deriving DecidableEq

/-- class Port (base_schematic.py 259-262) -/
structure Port where
  text : Text
  direction : Str
  deriving DecidableEq

/-- The data of AscEditor / BaseSchematic (asc_editor.py 219-221, base_schematic.py 284-293). -/
structure Sch where
  version : Str := "4".toList
  sheet : Str := "1 0 0".toList
  wires : List Line := []
  labels : List Text := []
  ports : List Port := []
  comps : List (Str × Comp) := []
  directives : List Text := []
  lines : List Line := []
  shapes : List Shape := []
  deriving DecidableEq

/-- `d[k] = v` of a Python dictionary kept in insertion order. -/
def dset {α : Type} (k : Str) (v : α) : List (Str × α) → List (Str × α)
  | [] => [(k, v)]
  | (k', v') :: l => if k' = k then (k', v) :: l else (k', v') :: dset k v l

/-! ### Writing: AscEditor.save_netlist (asc_editor.py 261-306) -/

/-- Line 264 -/
def wireLine (l : Line) : Str := row ["WIRE".toList, showInt l.x1, showInt l.y1, showInt l.x2, showInt l.y2]
/-- Line 266 -/
def flagLine (t : Text) : Str := row ["FLAG".toList, showInt t.x, showInt t.y, t.text]
/-- Lines 273-280: the WINDOW line of an attribute, if it has one. `attr[len("_WINDOW_"):]` drops eight characters. -/
def windowLine (a : Str × AttrVal) : Option Str :=
  match a.2 with
  | .text t => if a.1.take 7 = "_WINDOW".toList then
      some (row ["WINDOW".toList, a.1.drop 8, showInt t.x, showInt t.y, alignGet t, showInt t.size]) else none
  | .str _ => none
/-- Lines 287-289: the SYMATTR line of an attribute, if it has one. What Python would print for a Text object is not
modelled (no such attribute has a name without underscore). -/
def attrLine (a : Str × AttrVal) : Option Str :=
  match a.2 with
  | .str v => if a.1.head? = some '_' then none else some (row ["SYMATTR".toList, a.1, v])
  | .text _ => none
/-- Lines 267-289; none when the rotation has no name in the ASC format (KeyError, line 271). -/
def compLines (c : Comp) : Option (List Str) :=
  (rotName c.rot).map (fun r =>
    row ["SYMBOL".toList, c.symbol, showInt c.x, showInt c.y, r] ::
    c.attrs.filterMap windowLine ++
    row ["SYMATTR".toList, "InstName".toList, c.reference] ::
    c.attrs.filterMap attrLine)
/-- Lines 290-299 -/
def textLine (t : Text) : Str :=
  row ["TEXT".toList, showInt t.x, showInt t.y, alignGet t, showInt t.size, (if t.type = .directive then '!' else ';') :: t.text]
/-- Lines 300-302 -/
def lineLine (l : Line) : Str :=
  row (["LINE".toList, "Normal".toList, showInt l.x1, showInt l.y1, showInt l.x2, showInt l.y2] ++ if l.pattern = [] then [] else [l.pattern])
/-- Lines 303-306 -/
def shapeLine (s : Shape) : Str :=
  row ([s.name, "Normal".toList] ++ s.points.flatMap (fun p => [showInt p.1, showInt p.2]) ++ if s.pattern = [] then [] else [s.pattern])

/-- All of a list, or nothing. -/
def allSome {α : Type} : List (Option α) → Option (List α)
  | [] => some []
  | some a :: l => (allSome l).map (a :: ·)
  | none :: _ => none

/-- save_netlist (261-306): the lines of the file. Ports are not written. -/
def write (s : Sch) : Option (List Str) :=
  (allSome (s.comps.map (fun c => compLines c.2))).map (fun cs =>
    row ["Version".toList, s.version] :: row ["SHEET".toList, s.sheet] :: s.wires.map wireLine ++ s.labels.map flagLine ++
    cs.flatten ++ s.directives.map textLine ++ s.lines.map lineLine ++ s.shapes.map shapeLine)

/-- The text of a file with those lines (END_LINE_TERM, ltspice_utils.py 40). -/
def fileText (ls : List Str) : Str := ls.flatMap (fun l => l ++ ['\n'])

/-! ### Reading: AscEditor.reset_netlist (asc_editor.py 327-454) -/

/-- The lines of a text, as `for line in file` gives them, without their terminators. -/
def linesOf (s : Str) : List Str :=
  let ps := splitOn '\n' s
  if ps.getLast? = some [] then ps.dropLast else ps

/-- `(-?\d+)` of TEXT_REGEX (ltspice_utils.py 29-32) -/
def takeInt (s : Str) : Option (Int × Str) :=
  let go := fun (d : Str) => if d.takeWhile Char.isDigit = [] then none
    else some (Nat.ofDigitChars 10 (d.takeWhile Char.isDigit) 0, d.dropWhile Char.isDigit)
  match s with
  | '-' :: d => (go d).map (fun p => (-(p.1 : Int), p.2))
  | d => (go d).map (fun p => ((p.1 : Int), p.2))

/-- `\s+` -/
def takeBlanks (s : Str) : Option Str :=
  match s with
  | c :: r => if isSpace c then some (r.dropWhile isSpace) else none
  | [] => none

/-- The word of the alternation in TEXT_REGEX at the start of the text, in its own letters, and the rest. -/
def takeAlign (s : Str) : Option (Str × Str) :=
  (["left".toList, "right".toList, "top".toList, "bottom".toList, "center".toList, "invisible".toList].find?
    (fun w => w.isPrefixOf (lower s))).map (fun w => (s.take w.length, s.drop w.length))

/-- TEXT_REGEX.match (ltspice_utils.py 29-32) of a line: x, y, alignment, size, type and text. The optional V before the
alignment is not part of the group. -/
def textMatch (s : Str) : Option (Int × Int × Str × Int × Char × Str) :=
  if lower (s.take 5) = "text ".toList then do
    let (x, s) ← takeInt (s.drop 5)
    let s ← takeBlanks s
    let (y, s) ← takeInt s
    let s ← takeBlanks s
    let s := if s.head? = some 'V' ∨ s.head? = some 'v' then s.drop 1 else s
    let (a, s) ← takeAlign s
    match s with
    | [] => none
    | c :: s =>
      if !isSpace c ∨ s.takeWhile Char.isDigit = [] then none
      else
        let size : Int := Nat.ofDigitChars 10 (s.takeWhile Char.isDigit) 0
        match (s.dropWhile Char.isDigit).dropWhile isSpace with
        | [] => none
        | k :: text => if k = '!' ∨ k = ';' then some (x, y, a, size, k, text) else none
  else none

/-- The kinds of lines, in the order they are tested (lines 333-449). -/
inductive Kind where
  | symbol | window | symattr | text | wire | flag | version | sheet | iopin | figure | arc | dataflag | unknown
  deriving DecidableEq

def kind (s : Str) : Kind :=
  if "SYMBOL".toList.isPrefixOf s then .symbol
  else if "WINDOW".toList.isPrefixOf s then .window
  else if "SYMATTR".toList.isPrefixOf s then .symattr
  else if "TEXT".toList.isPrefixOf s then .text
  else if "WIRE".toList.isPrefixOf s then .wire
  else if "FLAG".toList.isPrefixOf s then .flag
  else if "Version".toList.isPrefixOf s then .version
  else if "SHEET ".toList.isPrefixOf s then .sheet
  else if "IOPIN ".toList.isPrefixOf s then .iopin
  else if "LINE".toList.isPrefixOf s ∨ "RECTANGLE".toList.isPrefixOf s ∨ "CIRCLE".toList.isPrefixOf s then .figure
  else if "ARC".toList.isPrefixOf s then .arc
  else if "DATAFLAG".toList.isPrefixOf s then .dataflag
  else .unknown

/-- The state of the reading loop: the schematic and the component being read. -/
structure Rd where
  sch : Sch
  pending : Option Comp
  deriving DecidableEq

/-- Storing the component (lines 334-337 and 450-452). Its reference is the empty text when no InstName was given, which the
assertion does not notice. -/
def flush (r : Rd) : Sch :=
  match r.pending with
  | none => r.sch
  | some c => { r.sch with comps := dset c.reference c r.sch.comps }

/-- Lines 333-346 -/
def readSymbol (r : Rd) (line : Str) : Option Rd :=
  let ws := (words line).drop 1
  if ws.length < 3 then none
  else
    let sym := ws.take (ws.length - 3)
    match ws.drop (ws.length - 3) with
    | [px, py, ro] => do
      let x ← parseInt px
      let y ← parseInt py
      let rot ← rotOf ro
      some { sch := flush r, pending := some { symbol := row sym, x, y, rot } }
    | _ => none

/-- Lines 347-354 -/
def readWindow (r : Rd) (line : Str) : Option Rd :=
  match r.pending, words line with
  | some c, [_, num, px, py, al, sz] => do
    let x ← parseInt px
    let y ← parseInt py
    let size ← parseInt sz
    let t ← alignSet { x, y, text := num, size, type := .attribute } al
    some { r with pending := some { c with attrs := dset ("_WINDOW ".toList ++ num) (.text t) c.attrs } }
  | _, _ => none

/-- Lines 356-371 -/
def readAttr (r : Rd) (line : Str) : Option Rd :=
  match r.pending, split3 line with
  | some c, some (_, ref, text) =>
    let text := strip text
    if ref = "InstName".toList then some { r with pending := some { c with reference := text } }
    else
      let text := if upper ref = "PREFIX".toList then upper text else text
      some { r with pending := some { c with attrs := dset ref (.str text) c.attrs } }
  | _, _ => none

/-- Lines 372-387: a TEXT line that the regular expression does not match is ignored. -/
def readText (r : Rd) (line : Str) : Option Rd :=
  match textMatch line with
  | none => some r
  | some (x, y, al, size, k, text) => do
    let t ← alignSet { x, y, text := strip text, size, type := if k = '!' then .directive else .comment } al
    some { r with sch := { r.sch with directives := r.sch.directives ++ [t] } }

/-- Lines 414-432 -/
def readFigure (r : Rd) (line : Str) : Option Rd :=
  let ws := words line
  if ws.length = 6 ∨ ws.length = 7 then do
    let x1 ← parseInt (ws.getD 2 [])
    let y1 ← parseInt (ws.getD 3 [])
    let x2 ← parseInt (ws.getD 4 [])
    let y2 ← parseInt (ws.getD 5 [])
    let pattern := ws.getD 6 []
    let sch := if "LINE".toList.isPrefixOf line then { r.sch with lines := r.sch.lines ++ [{ x1, y1, x2, y2, pattern }] } else r.sch
    let w0 := ws.getD 0 []
    let sch := if w0 = "RECTANGLE".toList ∨ w0 = "CIRCLE".toList then
      { sch with shapes := sch.shapes ++ [{ name := w0, points := [(x1, y1), (x2, y2)], pattern }] } else sch
    some { r with sch }
  else none

/-- Lines 434-444 -/
def readArc (r : Rd) (line : Str) : Option Rd :=
  let ws := words line
  if ws.length = 10 ∨ ws.length = 11 then do
    let x1 ← parseInt (ws.getD 2 [])
    let y1 ← parseInt (ws.getD 3 [])
    let x2 ← parseInt (ws.getD 4 [])
    let y2 ← parseInt (ws.getD 5 [])
    let x3 ← parseInt (ws.getD 6 [])
    let y3 ← parseInt (ws.getD 7 [])
    let x4 ← parseInt (ws.getD 8 [])
    let y4 ← parseInt (ws.getD 9 [])
    some { r with sch := { r.sch with shapes := r.sch.shapes ++
      [{ name := "ARC".toList, points := [(x1, y1), (x2, y2), (x3, y3), (x4, y4)], pattern := ws.getD 10 [] }] } }
  else none

/-- One line (332-449) -/
def step (r : Rd) (line : Str) : Option Rd :=
  match kind line with
  | .symbol => readSymbol r line
  | .window => readWindow r line
  | .symattr => readAttr r line
  | .text => readText r line
  | .wire => match words line with                                    -- 389-394
    | [_, a, b, c, d] => do
      let x1 ← parseInt a
      let y1 ← parseInt b
      let x2 ← parseInt c
      let y2 ← parseInt d
      some { r with sch := { r.sch with wires := r.sch.wires ++ [{ x1, y1, x2, y2 }] } }
    | _ => none
  | .flag => match words line with                                    -- 395-399
    | [_, a, b, text] => do
      let x ← parseInt a
      let y ← parseInt b
      some { r with sch := { r.sch with labels := r.sch.labels ++ [{ x, y, text, type := .label }] } }
    | _ => none
  | .version => match words line with                                 -- 400-403
    | [_, v] => if v = "4".toList ∨ v = "4.0".toList ∨ v = "4.1".toList then some { r with sch := { r.sch with version := v } } else none
    | _ => none
  | .sheet => some { r with sch := { r.sch with sheet := strip (line.drop 6) } }   -- 404-405
  | .iopin => match words line, r.sch.labels.getLast? with             -- 406-411
    | [_, a, b, dir], some l => do
      let x ← parseInt a
      let y ← parseInt b
      if l.x = x ∧ l.y = y then some { r with sch := { r.sch with ports := r.sch.ports ++ [{ text := l, direction := dir }] } } else none
    | _, _ => none
  | .figure => readFigure r line
  | .arc => readArc r line
  | .dataflag => some r                                               -- 445-446
  | .unknown => none                                                  -- 448

/-- The reading loop over the lines. -/
def steps : Rd → List Str → Option Rd
  | r, [] => some r
  | r, l :: ls => (step r l).bind (fun r => steps r ls)

/-- reset_netlist (327-454) of a freshly created editor. -/
def read (s : Str) : Option Sch := (steps { sch := {}, pending := none } (linesOf s)).map flush

/-- AscEditor.save_netlist to a file, as text. -/
def save (s : Sch) : Option Str := (write s).map fileText

end Model.Asc
