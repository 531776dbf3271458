import Verif.Model.Asy
/-
Specification: what an LTspice symbol file says. Taken from the model: the data types, white space, blank separated words, the
meaning of an alignment word (specified and proved under C46) and of a decimal integer.
-/
namespace Spec.SymbolFile
open Model.Asc (Text Line Shape words alignSet linesOf)
open Model.PyStr (isSpace upper strip parseInt)

abbrev Str := List Char

/-- What a line of the file says. -/
inductive Entry where
  | window (t : Text)
  | attr (name text : Str)
  | version (v : Str)
  | type (s : Str)
  | pin (p : Text)
  | pinAttr (name value : Str)
  | line (l : Line)
  | shape (s : Shape)
  | nothing

/-- The text of an attribute: stripped, and in capital letters for a prefix. -/
def attrText (name text : Str) : Str := if upper name = "PREFIX".toList then upper (strip text) else strip text

/-- How the text of a pin is placed. `NONE`: centred; a leading V turns the text; RIGHT and TOP move it to that side; otherwise it is
at the left and at the bottom. -/
structure Placed (j : Str) (p : Text) : Prop where
  none : j = "NONE".toList → p.hor = .center ∧ p.ver = .center ∧ p.angle = 0
  turned : j ≠ "NONE".toList → (p.angle = 90 ↔ ['V'] <+: j) ∧ (p.angle = 0 ∨ p.angle = 90)
  right : j ≠ "NONE".toList → (p.hor = .right ↔ j = "RIGHT".toList ∨ j = "VRIGHT".toList) ∧ (p.hor = .left ∨ p.hor = .right)
  top : j ≠ "NONE".toList → (p.ver = .top ↔ j = "TOP".toList ∨ j = "VTOP".toList) ∧ (p.ver = .bottom ∨ p.ver = .top)

/-- A word: not empty, no white space. -/
def Word (w : Str) : Prop := w ≠ [] ∧ ∀ c ∈ w, isSpace c = false

/-- White space. -/
def Blank (g : Str) : Prop := ∀ c ∈ g, isSpace c = true

/-- Two words followed by more text that is not blank: `tail` is everything from the third word on. -/
structure Headed (s a b tail : Str) : Prop where
  parts : ∃ g0 g1 g2 : Str, s = g0 ++ (a ++ (g1 ++ (b ++ (g2 ++ tail)))) ∧ Blank g0 ∧ (Blank g1 ∧ g1 ≠ []) ∧ Blank g2 ∧ g2 ≠ []
  first : Word a
  second : Word b
  tail : ∃ (c : Char) (r : Str), tail = c :: r ∧ isSpace c = false

/-- What a line says. Everything depends on how the line starts. -/
inductive Says : Str → Entry → Prop
  | window (s w0 num px py al sz : Str) (x y size : Int) (t : Text) (h : "WINDOW".toList <+: s) (hw : words s = [w0, num, px, py, al, sz])
      (hx : parseInt px = some x) (hy : parseInt py = some y) (hs : parseInt sz = some size)
      (ht : alignSet { x, y, text := num, size, type := .attribute } al = some t) : Says s (.window t)
  | attr (s w0 name text : Str) (h : "SYMATTR".toList <+: s) (hw : Headed s w0 name text) : Says s (.attr name (attrText name text))
  | attrEmpty (s w0 name : Str) (h : "SYMATTR".toList <+: s) (hw : words s = [w0, name]) : Says s (.attr name [])
  | attrNone (s w0 : Str) (h : "SYMATTR".toList <+: s) (hw : words s = [w0]) : Says s .nothing
  | version (s w0 v : Str) (h : "Version".toList <+: s) (hw : words s = [w0, v]) (hv : v ∈ ["4".toList, "4.0".toList, "4.1".toList]) : Says s (.version v)
  | type (s t : Str) (h : s = "SymbolType ".toList ++ t) : Says s (.type (strip t))
  | pinAttr (s w0 name value : Str) (h : "PINATTR".toList <+: s) (hs : s = w0 ++ ' ' :: name ++ ' ' :: value) (h0 : ' ' ∉ w0) (hn : ' ' ∉ name)
      (hv : ' ' ∉ value) : Says s (.pinAttr name (strip value))
  | pin (s w0 px py j off : Str) (x y size : Int) (p : Text) (h : "PIN".toList <+: s) (h' : ¬ "PINATTR".toList <+: s) (hw : words s = [w0, px, py, j, off])
      (hx : parseInt px = some x) (hy : parseInt py = some y) (hs : parseInt off = some size)
      (hp : p = { x, y, text := [], size, type := .pin, hor := p.hor, ver := p.ver, angle := p.angle }) (hj : Placed j p) : Says s (.pin p)
  | line (s w0 w1 a b c d : Str) (style : List Str) (x1 y1 x2 y2 : Int) (h : "LINE".toList <+: s) (hw : words s = [w0, w1, a, b, c, d] ++ style)
      (hs : style.length ≤ 1) (ha : parseInt a = some x1) (hb : parseInt b = some y1) (hc : parseInt c = some x2) (hd : parseInt d = some y2) :
      Says s (.line { x1, y1, x2, y2, pattern := style.flatten })
  | shape (s w0 w1 a b c d : Str) (style : List Str) (x1 y1 x2 y2 : Int) (hw : words s = [w0, w1, a, b, c, d] ++ style)
      (h : w0 <+: s) (h0 : w0 = "RECTANGLE".toList ∨ w0 = "CIRCLE".toList)
      (hs : style.length ≤ 1) (ha : parseInt a = some x1) (hb : parseInt b = some y1) (hc : parseInt c = some x2) (hd : parseInt d = some y2) :
      Says s (.shape { name := w0, points := [(x1, y1), (x2, y2)], pattern := style.flatten })
  | arc (s w0 w1 a b c d e f g i : Str) (style : List Str) (x1 y1 x2 y2 x3 y3 x4 y4 : Int) (h : "ARC".toList <+: s)
      (hw : words s = [w0, w1, a, b, c, d, e, f, g, i] ++ style) (hs : style.length ≤ 1)
      (ha : parseInt a = some x1) (hb : parseInt b = some y1) (hc : parseInt c = some x2) (hd : parseInt d = some y2)
      (he : parseInt e = some x3) (hf : parseInt f = some y3) (hg : parseInt g = some x4) (hi : parseInt i = some y4) :
      Says s (.shape { name := "ARC".toList, points := [(x1, y1), (x2, y2), (x3, y3), (x4, y4)], pattern := style.flatten })
  | figureOther (s w0 w1 a b c d : Str) (style : List Str) (x1 y1 x2 y2 : Int) (h : "RECTANGLE".toList <+: s ∨ "CIRCLE".toList <+: s)
      (hw : words s = [w0, w1, a, b, c, d] ++ style) (h0 : w0 ≠ "RECTANGLE".toList ∧ w0 ≠ "CIRCLE".toList) (hs : style.length ≤ 1)
      (ha : parseInt a = some x1) (hb : parseInt b = some y1) (hc : parseInt c = some x2) (hd : parseInt d = some y2) : Says s .nothing
  | note (s w0 px py al sz text : Str) (x y size : Int) (t : Text) (h : "TEXT ".toList <+: s) (hw : words s = [w0, px, py, al, sz, text])
      (hx : parseInt px = some x) (hy : parseInt py = some y) (hs : parseInt sz = some size)
      (ht : alignSet { x, y, text, size, type := .comment } al = some t) : Says s (.window t)
  | noteOther (s : Str) (h : "TEXT ".toList <+: s) (hw : (words s).length ≠ 6) : Says s .nothing

/-- The attributes of a pin: the PINATTR lines before the next pin. -/
def attrsOf : List Entry → List (Str × Str)
  | .pin _ :: _ => []
  | .pinAttr n v :: es => (n, v) :: attrsOf es
  | _ :: es => attrsOf es
  | [] => []

/-- The pins with their attributes, in file order. -/
def pinsOf : List Entry → List (Text × List (Str × Str))
  | .pin p :: es => (p, attrsOf es) :: pinsOf es
  | _ :: es => pinsOf es
  | [] => []

/-- The text in which the attributes of a pin are kept: `name=value;` one after the other. -/
def pinText (as : List (Str × Str)) : Str := as.flatMap (fun a => a.1 ++ '=' :: a.2 ++ [';'])

def versions (es : List Entry) : List Str := es.filterMap (fun e => match e with | .version v => some v | _ => none)
def types (es : List Entry) : List Str := es.filterMap (fun e => match e with | .type v => some v | _ => none)
def windows (es : List Entry) : List Text := es.filterMap (fun e => match e with | .window t => some t | _ => none)
def lines (es : List Entry) : List Line := es.filterMap (fun e => match e with | .line t => some t | _ => none)
def shapes (es : List Entry) : List Shape := es.filterMap (fun e => match e with | .shape t => some t | _ => none)
def attrs (es : List Entry) : List (Str × Str) := es.filterMap (fun e => match e with | .attr n t => some (n, t) | _ => none)

/-- No PINATTR before the first PIN. -/
def PinsFirst (es : List Entry) : Prop := ∀ (a b : List Entry) (n v : Str), es = a ++ .pinAttr n v :: b → ∃ p, Entry.pin p ∈ a

/-- What the reader shows of a file that says `es`: the last version and type, everything drawn in file order, and for every attribute
the text of its last line. -/
structure Shows (es : List Entry) (st : Model.Asy.St) : Prop where
  version : st.version = (versions es).getLast?.getD "4".toList
  type : st.symbolType = (types es).getLast?
  windows : st.windows = windows es
  lines : st.lines = lines es
  shapes : st.shapes = shapes es
  pins : st.pins = (pinsOf es).map (fun p => { p.1 with text := pinText p.2 })
  attrs : ∀ k, st.attrs.lookup k = (attrs es).reverse.lookup k
  keys : (st.attrs.map Prod.fst).Nodup

end Spec.SymbolFile

namespace Spec.SymbolFile

/-- The first of the named attributes whose value fulfils a condition. -/
def FirstOf (P : Str → Prop) (order : List Str) (st : Model.Asy.St) (v : Str) : Prop :=
  ∃ (before : List Str) (a : Str) (after : List Str), order = before ++ a :: after ∧ st.attrs.lookup a = some v ∧ P v ∧
    ∀ b ∈ before, ∀ u, st.attrs.lookup b = some u → ¬ P u

/-- A file name of a model library: it ends in .lib, .sub, .cir or .txt, in any letter case. -/
def LibraryName (v : Str) : Prop := ∃ e ∈ [".lib".toList, ".sub".toList, ".cir".toList, ".txt".toList], ∃ n x : Str, v = n ++ x ∧ Model.PyStr.lower x = e

end Spec.SymbolFile
