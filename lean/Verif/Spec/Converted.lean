import Verif.Model.Convert
import Mathlib.Logic.Function.Iterate
import Mathlib.Data.List.Forall2
/-
Specification: what a QSPICE schematic converted from an LTspice schematic shows. Taken from the model: the data types of the two
schematics and of the symbol file.
-/
namespace Spec.Converted
open Model.Asc (Sch Comp Text Line Shape AttrVal TextType)
open Model.Convert (Loaded QPart)
open Model.Qsch (Attr)

abbrev Str := List Char

/-- One LTspice unit is 25/4 QSPICE units, and QSPICE's y axis points up; fractions are cut off. -/
def east (x : Int) : Int := (25 * x).tdiv 4
def north (y : Int) : Int := -((25 * y).tdiv 4)

/-- The whole number closest to a quarter of n; of two the even one. -/
def Closest (n m : Int) : Prop := -2 ≤ 4 * m - n ∧ 4 * m - n ≤ 2 ∧ (4 * m - n = 2 ∨ 4 * m - n = -2 → m % 2 = 0)

/-- LTspice turns clockwise, QSPICE counterclockwise: a quarter turn and three quarters are exchanged, mirrored (360 more) or not. -/
def reversed (rot : Nat) : Nat :=
  if rot % 360 = 90 then rot + 180 else if rot % 360 = 270 then rot - 180 else rot

/-- Where a pin of an LTspice component is: turned clockwise (the y axis points down), then mirrored left to right for rotations from 360 on. -/
def ltspicePin (cx cy : Int) (rot : Nat) (px py : Int) : Int × Int :=
  let p : Int × Int := if rot % 360 = 90 then (-py, px) else if rot % 360 = 180 then (-px, -py) else if rot % 360 = 270 then (py, -px) else (px, py)
  (if rot < 360 then cx + p.1 else cx - p.1, cy + p.2)

/-- A text that can stand between quotes in a tag. -/
def Quotable (s : Str) : Prop := '"' ∉ s ∧ ¬ [':', ' '] <:+: s

/-- A text that can stand after a colon. -/
def Free (s : Str) : Prop := (∀ c ∈ s, c ≠ '"' ∧ c ≠ '«' ∧ c ≠ '»' ∧ c ≠ '\n') ∧ ¬ [':', ' '] <:+: s

/-- The attributes of a pin are written one after the other, and one of them is its name. -/
def PinNamed (p : Text) (name : Str) : Prop :=
  ∃ before after : List (Str × Str), p.text = (before ++ ("PinName".toList, name) :: after).flatMap (fun a => a.1 ++ '=' :: a.2 ++ [';']) ∧
    (∀ a ∈ before ++ ("PinName".toList, name) :: after, ';' ∉ a.1 ∧ '=' ∉ a.1 ∧ ';' ∉ a.2 ∧ '=' ∉ a.2) ∧ ∀ a ∈ after, a.1 ≠ "PinName".toList

/-- A symbol that can be converted: it has a prefix and a description, exactly two windows (reference and value), named pins and no
shapes but rectangles, circles and arcs whose arithmetic succeeds. -/
structure SymbolOk (arc : List (Int × Int) → Option ((Int × Int) × (Int × Int) × (Int × Int))) (st : Model.Asy.St) (pfx desc : Str) : Prop where
  prefixed : st.attrs.lookup "Prefix".toList = some pfx
  free : Free pfx
  first : ∃ (c : Char) (r : Str), pfx = c :: r ∧ Model.PyStr.isSpace c = false
  described : st.attrs.lookup "Description".toList = some desc
  descFree : Free desc
  windows : st.windows.length = 2
  pins : ∀ p ∈ st.pins, ∃ n, PinNamed p n ∧ Quotable n
  shapes : ∀ s ∈ st.shapes, (s.name = "RECTANGLE".toList ∨ s.name = "CIRCLE".toList) ∧ 2 ≤ s.points.length ∨ s.name = "ARC".toList ∧ (arc s.points).isSome

/-- The value shown for a component. -/
def Value (c : Comp) (v : Str) : Prop :=
  c.attrs.lookup "Value".toList = some (.str v) ∨ c.attrs.lookup "Value".toList = none ∧ v = "<val>".toList

/-- What the reader needs of the LTspice schematic. Rotations are those of the ASC format. -/
structure Convertible (symArc schArc : List (Int × Int) → Option ((Int × Int) × (Int × Int) × (Int × Int))) (syms : Str → Option Model.Asy.St) (s : Sch) : Prop where
  named : ∀ p ∈ s.comps, p.1 = p.2.reference
  distinct : (s.comps.map Prod.fst).Nodup
  references : ∀ p ∈ s.comps, p.2.reference ≠ [] ∧ Quotable p.2.reference
  values : ∀ p ∈ s.comps, ∃ v, Value p.2 v ∧ Quotable v
  rotations : ∀ p ∈ s.comps, p.2.rot ∈ [0, 90, 180, 270, 360, 450, 540, 630]
  symbols : ∀ p ∈ s.comps, ∃ st pfx desc, syms p.2.symbol = some st ∧ SymbolOk symArc st pfx desc
  labels : ∀ t ∈ s.labels, Quotable t.text ∧ t.text.take 2 ≠ ['0', 'x']
  texts : ∀ t ∈ s.directives, Quotable t.text
  marks : ∀ t ∈ s.directives, ∀ c, t.text.head? = some c → c ≠ 'ï' ∧ c ≠ '»' ∧ c ≠ '¿'
  shapes : ∀ x ∈ s.shapes, (x.name = "RECTANGLE".toList ∨ x.name = "CIRCLE".toList) ∧ 2 ≤ x.points.length ∨
    x.name = "ARC".toList ∧ x.points.length = 4 ∧ (schArc (x.points.map (fun p => (east p.1, north p.2)))).isSome

/-- The first and the last component with their symbol. -/
def First (s : Sch) (c : Comp) : Prop := ∃ before after : List (Str × Comp), s.comps = before ++ (c.reference, c) :: after ∧ ∀ p ∈ before, p.2.symbol ≠ c.symbol
def Last (s : Sch) (c : Comp) : Prop := ∃ before after : List (Str × Comp), s.comps = before ++ (c.reference, c) :: after ∧ ∀ p ∈ after, p.2.symbol ≠ c.symbol

/-- What the converted file shows. `shared` tells which labels were made into ports. -/
structure Shows (syms : Str → Option Model.Asy.St) (shared : List Nat) (s : Sch) (l : Loaded) : Prop where
  /-- labels in order, at their place; those of ports have been scaled again for each port -/
  labels : l.labels = s.labels.mapIdx (fun i t => (east^[1 + shared.count i] t.x, north^[1 + shared.count i] t.y, Attr.text t.text))
  /-- wires in order, all of them with the net 0 -/
  wires : l.wires = s.wires.map (fun w => (east w.x1, north w.y1, east w.x2, north w.y2, "0".toList))
  lines : l.lines = s.lines.map (fun w => (east w.x1, north w.y1, east w.x2, north w.y2))
  /-- instructions and comments, all of them as instructions -/
  directives : l.directives = s.directives.map (fun t => (east t.x, north t.y, t.text, TextType.directive))
  /-- one component for every symbol, named like the first that uses it -/
  names : ∀ r : Str, r ∈ l.comps.map Prod.fst ↔ ∃ c, First s c ∧ c.reference = r
  distinct : (l.comps.map Prod.fst).Nodup
  /-- with the value of the first and the place of the last -/
  comps : ∀ first last : Comp, First s first → Last s last → first.symbol = last.symbol → ∀ st pfx desc, syms first.symbol = some st →
    st.attrs.lookup "Prefix".toList = some pfx → st.attrs.lookup "Description".toList = some desc → ∃ q, l.comps.lookup first.reference = some q ∧
      (∃ v, Value first v ∧ q.value = .text v) ∧ q.x = east last.x ∧ q.y = north last.y ∧ q.rot = reversed last.rot ∧ q.type = pfx ∧ q.description = desc ∧
      q.enabled = true ∧ List.Forall₂ (fun (p : Text) (xy : Int × Int) => Closest (25 * p.x) xy.1 ∧ Closest (-25 * p.y) xy.2) st.pins q.pins

end Spec.Converted
