import Verif.Model.Asy
import Verif.Model.QNetlist
import Verif.Model.QNets
/-
The conversion of LTspice schematics to QSPICE: spicelib/scripts/asc_to_qsch.py (convert_asc_to_qsch), AsyReader.to_qsch of
spicelib/editor/asy_reader.py, BaseSchematic.scale and copy_from, QschEditor.copy_from and save_as, and the reading of the result by
QschEditor._parse_qsch_stream.

Simplifications: the LTspice schematic has been read (C46) and every symbol file that is found has been read (C78); where the symbol
files are searched is a parameter; products with 6.25 are exact (true of floats for coordinates below 2^48); the arithmetic of arcs is
a parameter; `none` stands for an exception; sub-circuits of components are left out (nothing but `scale` and the loop over the
components of the top sheet touches them).
-/
namespace Model.Convert
open Model.PyStr Model.Qsch
open Model.QNetlist (getItems getText)
open Model.Asc (Sch Comp Text Line Shape AttrVal TextType dset)

abbrev Str := List Char

/-- A loop that appends one result per element, or raises. -/
def each {α β : Type} (f : α → Option β) : List α → Option (List β)
  | [] => some []
  | a :: l => (f a).bind (fun b => (each f l).map (b :: ·))

/-- `int(x * 6.25)` and `int(y * -6.25)` (base_schematic.py 386-410, asy_reader.py 195-198; asc_to_qsch_data.xml: scaling 6.25,
-6.25 and offset 0): towards zero. -/
def scaleX (x : Int) : Int := (25 * x).tdiv 4
def scaleY (y : Int) : Int := (-25 * y).tdiv 4

/-- `f"{n / 4:.0f}"` for an integer n: the nearest integer, of two the even one. -/
def nearest (n : Int) : Int :=
  if n % 4 < 2 then n / 4 else if n % 4 = 2 then (if n / 4 % 2 = 0 then n / 4 else n / 4 + 1) else n / 4 + 1

/-- `f"{x * SCALE_X:.0f}"` and `f"{y * SCALE_Y:.0f}"` (asy_reader.py 249, 264): 0 * -6.25 is the float -0.0, written -0. -/
def fixedX (x : Int) : Str := showInt (nearest (25 * x))
def fixedY (y : Int) : Str := if y = 0 then "-0".toList else showInt (nearest (-25 * y))

/-- `({a},{b})` -/
def paren (a b : Str) : Str := '(' :: a ++ ',' :: b ++ [')']
def point (x y : Int) : Str := paren (showInt x) (showInt y)
/-- `"{s}"` -/
def quoted (s : Str) : Str := '"' :: s ++ ['"']

/-- `QschTag.parse(f"«... ... ...»")`: the text is made of tokens separated by one blank. -/
def tag (toks : List Str) : Option Tag :=
  match parse ('«' :: join toks ++ ['»']) with
  | .ok (t, _) => some t
  | .error _ => none

/-- The blank separated words of a literal of the source text. -/
def lits (s : String) : List Str := splitOn ' ' s.toList

/-! ### Symbols: AsyReader.to_qsch (asy_reader.py 186-270) -/

/-- 193-201 -/
def symLine (l : Line) : Option Tag :=
  tag (["line".toList, point (scaleX l.x1) (scaleY l.y1), point (scaleX l.x2) (scaleY l.y2)] ++ lits "0 0 0x1000000 -1 -1")

/-- 204-210 and 238-245: rectangles and circles. -/
def symBox (name : Str) (rest : List Str) (ps : List (Int × Int)) : Option Tag :=
  match ps with
  | a :: b :: _ => tag ([name, point (scaleX a.1) (scaleY a.2), point (scaleX b.1) (scaleY b.2)] ++ rest)
  | _ => none

/-- 211-237: `arc` gives the three points, or raises ZeroDivisionError. -/
def symArc (arc : List (Int × Int) → Option ((Int × Int) × (Int × Int) × (Int × Int))) (ps : List (Int × Int)) : Option Tag :=
  (arc ps).bind (fun p => tag (["arc3p".toList, point p.1.1 p.1.2, point p.2.1.1 p.2.1.2, point p.2.2.1 p.2.2.2] ++ lits "0 0 0xff0000 -1 -1"))

/-- 203-248 -/
def symShape (arc : List (Int × Int) → Option ((Int × Int) × (Int × Int) × (Int × Int))) (s : Shape) : Option Tag :=
  if s.name = "RECTANGLE".toList then symBox "rect".toList (lits "0 0 0 0x4000000 0x1000000 -1 0 -1") s.points
  else if s.name = "ARC".toList then symArc arc s.points
  else if s.name = "CIRCLE".toList ∨ s.name = "ellipse".toList then symBox "ellipse".toList (lits "0 0 0 0x1000000 0x1000000 -1 -1") s.points
  else none

/-- 250-256: one text per window, in file order; `args[i]` raises IndexError beyond the arguments. -/
def symTexts : List Text → List Str → Option (List Tag)
  | [], _ => some []
  | _ :: _, [] => none
  | w :: ws, a :: as =>
    (tag (["text".toList, paren (fixedX w.x) (fixedY w.y)] ++ lits "1 7 0 0x1000000 -1 -1" ++ [quoted a])).bind (fun t => (symTexts ws as).map (t :: ·))

/-- 260-265: `k, v = pair.split('=')` raises when there are two equal signs. -/
def pinAttrs : List Str → List (Str × Str) → Option (List (Str × Str))
  | [], d => some d
  | pair :: ps, d =>
    if '=' ∈ pair then
      match splitOn '=' pair with
      | [k, v] => pinAttrs ps (dset k v d)
      | _ => none
    else pinAttrs ps d

/-- 258-268 -/
def symPin (p : Text) : Option Tag :=
  (pinAttrs (splitOn ';' p.text) []).bind (fun d => (d.lookup "PinName".toList).bind (fun n =>
    tag (["pin".toList, paren (fixedX p.x) (fixedY p.y), "(0,0)".toList] ++ lits "1 0 0 0x1000000 -1" ++ [quoted n])))

/-- 186-270: a missing attribute raises KeyError, an empty prefix IndexError. -/
def toQsch (arc : List (Int × Int) → Option ((Int × Int) × (Int × Int) × (Int × Int))) (st : Model.Asy.St) (ref value : Str) : Option Tag := do
  let pfx ← st.attrs.lookup "Prefix".toList
  let c ← pfx.head?
  let desc ← st.attrs.lookup "Description".toList
  let ls ← each symLine st.lines
  let ss ← each (symShape arc) st.shapes
  let ts ← symTexts st.windows [ref, value]
  let ps ← each symPin st.pins
  some (.mk ["symbol".toList, [c]]
    ([.mk ["type:".toList, pfx] [], .mk ["description:".toList, desc] [], .mk ["shorted pins:".toList, "false".toList] []] ++ ls ++ ss ++ ts ++ ps))

/-! ### The schematic -/

/-- A component after the first loop (asc_to_qsch.py 94-201): its place and the tag of its symbol, if there is one. -/
structure Placed where
  x : Int
  y : Int
  rot : Nat
  symbol : Option Tag

/-- asc_to_qsch.py 186-193 -/
def turn (r : Nat) : Nat := if r = 90 then 270 else if r = 270 then 90 else if r = 450 then 630 else if r = 630 then 450 else r

/-- `comp.attributes.get('Value', '<val>')` (113) -/
def valueOf (c : Comp) : Str :=
  match c.attrs.lookup "Value".toList with
  | some (.str v) => v
  | _ => "<val>".toList

/-- The loop over the components (94-201). `stock` is symbol_stock: a tag is made for the first component with a symbol and used again
for the others; a symbol that is not found leaves the component without. -/
def place (arc : List (Int × Int) → Option ((Int × Int) × (Int × Int) × (Int × Int))) (syms : Str → Option Model.Asy.St) :
    List (Str × Tag) → List Comp → Option (List Placed)
  | _, [] => some []
  | stock, c :: cs =>
    match stock.lookup c.symbol with
    | some t => (place arc syms stock cs).map (⟨scaleX c.x, scaleY c.y, turn c.rot, some t⟩ :: ·)
    | none => match syms c.symbol with
      | none => (place arc syms stock cs).map (⟨scaleX c.x, scaleY c.y, turn c.rot, none⟩ :: ·)
      | some st => (toQsch arc st c.reference (valueOf c)).bind (fun t =>
          (place arc syms (stock ++ [(c.symbol, t)]) cs).map (⟨scaleX c.x, scaleY c.y, turn c.rot, some t⟩ :: ·))

/-- qsch_editor.py 1334-1340 -/
def compTag (p : Placed) : Option Tag :=
  (tag ["component".toList, point p.x p.y, showNat (p.rot / 45), "0".toList]).map (fun t => .mk t.tokens (t.items ++ p.symbol.toList))

/-- A step done several times. -/
def times (f : Int → Int) : Nat → Int → Int
  | 0, x => x
  | n + 1, x => times f n (f x)

/-- Label `i` is scaled once, and once more for every port that was made from it: a Port holds the very same Text object
(asc_editor.py 408-410; base_schematic.py 393-395, 399-401). -/
def labelAt (shared : List Nat) (i : Nat) (t : Text) : Int × Int :=
  (times scaleX (1 + shared.count i) t.x, times scaleY (1 + shared.count i) t.y)

/-- qsch_editor.py 1342-1346 -/
def labelTag (p : Int × Int) (text : Str) : Option Tag :=
  (tag (lits "net (0,0) 1 13 0 \"0\"")).bind (fun t => (t.setAttr 5 (.str text)).bind (fun t => t.setAttr 1 (.pair p.1 p.2)))

/-- the labels with their numbers -/
def labelTags (shared : List Nat) : Nat → List Text → Option (List Tag)
  | _, [] => some []
  | i, t :: ts => (labelTag (labelAt shared i t) t.text).bind (fun x => (labelTags shared (i + 1) ts).map (x :: ·))

/-- qsch_editor.py 1348-1353: the net stays "0". -/
def wireTag (l : Line) : Option Tag :=
  (tag (lits "wire (0,0) (0,0) \"0\"")).bind (fun t => (t.setAttr 1 (.pair (scaleX l.x1) (scaleY l.y1))).bind (fun t =>
    t.setAttr 2 (.pair (scaleX l.x2) (scaleY l.y2))))

/-- qsch_editor.py 1355-1367: the style is not converted. -/
def lineTag (l : Line) : Option Tag :=
  (tag (lits "line (2000,1300) (3150,-100) 0 2 0xff0000 -1 -1")).bind (fun t => (t.setAttr 1 (.pair (scaleX l.x1) (scaleY l.y1))).bind (fun t =>
    t.setAttr 2 (.pair (scaleX l.x2) (scaleY l.y2))))

/-- two points of a shape -/
def boxTag (text : String) (ps : List (Int × Int)) : Option Tag :=
  match ps with
  | a :: b :: _ => (tag (lits text)).bind (fun t => (t.setAttr 1 (.pair (scaleX a.1) (scaleY a.2))).bind (fun t =>
      t.setAttr 2 (.pair (scaleX b.1) (scaleY b.2))))
  | _ => none

/-- qsch_editor.py 1391-1406: `arc` gives the three points from the four scaled ones. -/
def arcTag (arc : List (Int × Int) → Option ((Int × Int) × (Int × Int) × (Int × Int))) (ps : List (Int × Int)) : Option Tag :=
  if ps.length = 4 then
    (arc (ps.map (fun p => (scaleX p.1, scaleY p.2)))).bind (fun p => (tag (lits "arc3p (2700,300) (2250,1200) (2500,800) 0 2 0xff0000 -1 -1")).bind (fun t =>
      (t.setAttr 1 (.pair p.1.1 p.1.2)).bind (fun t => (t.setAttr 2 (.pair p.2.1.1 p.2.1.2)).bind (fun t => t.setAttr 3 (.pair p.2.2.1 p.2.2.2)))))
  else none

/-- qsch_editor.py 1369-1416: an unknown shape is left out (an LTspice schematic only has these three). -/
def shapeTag (arc : List (Int × Int) → Option ((Int × Int) × (Int × Int) × (Int × Int))) (s : Shape) : Option (List Tag) :=
  if s.name = "RECTANGLE".toList then (boxTag "rect (1850,1550) (3650,-400) 0 0 2 0xff0000 0x1000000 -1 0 -1" s.points).map ([·])
  else if s.name = "CIRCLE".toList then (boxTag "ellipse (2100,1150) (2650,150) 0 0 2 0xff0000 0x1000000 -1 -1" s.points).map ([·])
  else if s.name = "ARC".toList then (arcTag arc s.points).map ([·])
  else some []

/-- QSCH_TEXT_INSTR_QUALIFIER (qsch_editor.py 94) -/
def qualifier : Str := ['ï', '»', '¿']

/-- qsch_editor.py 1418-1422: comments too are written as instructions. -/
def directiveTag (t : Text) : Option Tag :=
  (tag (lits "text (0,0) 1 7 0 0x1000000 -1 -1 \"text\"")).bind (fun x => (x.setAttr 8 (.str (qualifier ++ t.text))).bind (fun x =>
    x.setAttr 1 (.pair (scaleX t.x) (scaleY t.y))))

/-- convert_asc_to_qsch (61-205): the tag of the new schematic. Ports are not copied. -/
def convert (symArc schArc : List (Int × Int) → Option ((Int × Int) × (Int × Int) × (Int × Int))) (syms : Str → Option Model.Asy.St)
    (shared : List Nat) (s : Sch) : Option Tag := do
  let ps ← place symArc syms [] (s.comps.map Prod.snd)
  let cs ← each compTag ps
  let ns ← labelTags shared 0 s.labels
  let ws ← each wireTag s.wires
  let ls ← each lineTag s.lines
  let ss ← each (shapeTag schArc) s.shapes
  let ts ← each directiveTag s.directives
  some (.mk ["schematic".toList] (cs ++ ns ++ ws ++ ls ++ ss.flatten ++ ts))

/-- The file that is written (save_as, 584-601). -/
def convertFile (symArc schArc : List (Int × Int) → Option ((Int × Int) × (Int × Int) × (Int × Int))) (syms : Str → Option Model.Asy.St)
    (shared : List Nat) (s : Sch) : Option Str := (convert symArc schArc syms shared s).map fileText

/-! ### Reading it (QschEditor._parse_qsch_stream, 892-1034) -/

/-- A component as the reader keeps it, with the positions of its pins relative to it. -/
structure QPart where
  value : Attr
  x : Int
  y : Int
  rot : Nat
  type : Str
  description : Str
  enabled : Bool
  pins : List (Int × Int)
  deriving DecidableEq

/-- The data of the sheet. -/
structure Loaded where
  labels : List (Int × Int × Attr)
  wires : List (Int × Int × Int × Int × Str)
  comps : List (Str × QPart)
  directives : List (Int × Int × Str × TextType)
  lines : List (Int × Int × Int × Int)
  deriving DecidableEq

/-- `x, y = tag.get_attr(i)` -/
def pairAt (t : Tag) (i : Nat) : Option (Int × Int) :=
  match t.getAttr i with
  | some (.tuple [x, y]) => some (x, y)
  | _ => none

/-- An attribute that is used as a text. -/
def textAt (t : Tag) (i : Nat) : Option Str :=
  match t.getAttr i with
  | some (.text s) => some s
  | _ => none

/-- 909-915 -/
def readNet (t : Tag) : Option (Int × Int × Attr) := do
  let p ← pairAt t 1
  let n ← t.getAttr 5
  some (p.1, p.2, n)

/-- 917-931 -/
def readWire (t : Tag) : Option (Int × Int × Int × Int × Str) := do
  let p ← pairAt t 1
  let q ← pairAt t 2
  let n ← textAt t 3
  some (p.1, p.2, q.1, q.2, n)

/-- 933-984: `get_items('symbol')[0]` raises IndexError without a symbol; an orientation above 15 raises ValueError. -/
def readComp (t : Tag) : Option (Str × QPart) := do
  let sym ← (getItems t "symbol".toList).head?
  match getItems sym "text".toList with
  | a :: b :: _ => do
    let ref ← textAt a 8
    let value ← b.getAttr 8
    let p ← pairAt t 1
    let o ← (match t.getAttr 2 with | some (.int n) => if 0 ≤ n ∧ n ≤ 15 then some n.toNat else none | _ => none)
    let type ← getText sym "type".toList (some "X".toList)
    let desc ← getText sym "description".toList (some "No Description".toList)
    let en ← t.getAttr 3
    let pins ← each (fun q => pairAt q 1) (getItems sym "pin".toList)
    if ref = [] ∧ pins ≠ [] then none
    else some (ref, ⟨value, p.1, p.2, o * 45, type, desc, decide (en = .int 0), pins⟩)
  | _ => none

/-- 998-1020: `lstrip` takes away all leading characters of the qualifier. -/
def readText (t : Tag) : Option (Int × Int × Str × TextType) := do
  let p ← pairAt t 1
  let s ← textAt t 8
  let _ ← t.getAttr 2
  let k ← t.getAttr 4
  if k = .int 1 then some (p.1, p.2, s, .comment)
  else if qualifier.isPrefixOf s then some (p.1, p.2, s.dropWhile (fun c => decide (c ∈ qualifier)), .directive)
  else some (p.1, p.2, s, .null)

/-- 1022-1033 -/
def readLine (t : Tag) : Option (Int × Int × Int × Int) := do
  let p ← pairAt t 1
  let q ← pairAt t 2
  some (p.1, p.2, q.1, q.2)

/-- 892-1034 -/
def load (t : Tag) : Option Loaded := do
  let labels ← each readNet (getItems t "net".toList)
  let wires ← each readWire (getItems t "wire".toList)
  let comps ← each readComp (getItems t "component".toList)
  let directives ← each readText (getItems t "text".toList)
  let lines ← each readLine (getItems t "line".toList)
  some { labels, wires, comps := comps.foldl (fun d p => dset p.1 p.2 d) [], directives, lines }

/-- Opening the file (864-904). -/
def loadFile (s : Str) : Option Loaded :=
  match readFile s with
  | some (.ok (t, _)) => load t
  | _ => none

/-- The sheet on which nets are searched (QschEditor._find_net_at_position, modelled in Model/QNets). -/
def Loaded.sheet (l : Loaded) : Model.QNets.Sheet where
  labels := l.labels.filterMap (fun n => match n.2.2 with | .text s => some ((n.1, n.2.1), s) | _ => none)
  wires := l.wires.map (fun w => ((w.1, w.2.1), (w.2.2.1, w.2.2.2.1), w.2.2.2.2))

end Model.Convert
