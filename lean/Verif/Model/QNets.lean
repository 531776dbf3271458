import Verif.Model.PyStr
/-
The nets of the pins of a QSPICE schematic, found when the file is read: spicelib/editor/qsch_editor.py 858-868
(_find_net_at_position) and 903-982 (_parse_qsch_stream).

Simplifications: the position of a pin is given (838-856 compute it with sines and cosines, rounded to multiples of 100); references
are not empty (`refdes[0]` raises otherwise).
-/
namespace Model.QNets
open Model.PyStr

abbrev Str := List Char
abbrev Pos := Int × Int

/-- A pin: where it is, and whether its tag carries the behavioural net ¥ (963-966). -/
structure Pin where
  pos : Pos
  mark : Bool
  deriving DecidableEq, Repr

/-- A component tag: reference and pins, in file order. -/
structure Part where
  ref : Str
  pins : List Pin

/-- The net tags (labels, grounds, ports) and the wires, in file order. -/
structure Sheet where
  labels : List (Pos × Str)
  wires : List (Pos × Pos × Str)

/-- 863, 867: GND is node 0. -/
def ground (n : Str) : Str := if n = "GND".toList then "0".toList else n

/-- 858-868 -/
def netAt (s : Sheet) (p : Pos) : Option Str :=
  match s.labels.find? (fun l => l.1 = p) with
  | some l => some (ground l.2)
  | none => match s.wires.find? (fun w => w.1 = p || w.2.1 = p) with
    | some w => some (ground w.2.2)
    | none => none

/-- 923-929: the number of a net name of the form N##. -/
def number (n : Str) : Option Int :=
  match n with
  | 'N' :: d => parseInt d
  | _ => none

/-- 923-929: the highest number so far -/
def higher (h : Nat) (w : Pos × Pos × Str) : Nat :=
  match number w.2.2 with
  | some k => if (h : Int) < k then k.toNat else h
  | none => h

/-- 905, 917-930 -/
def highest (s : Sheet) : Nat := s.wires.foldl higher 0

/-- `f'{n:02d}'` -/
def twoDigits (n : Nat) : Str := if n < 10 then '0' :: showNat n else showNat n

/-- highest_net_number, behavior_pin_counter and unconnected_pins (905-907) -/
structure St where
  top : Nat
  beh : Nat
  floating : List (Pos × Str)

/-- `refdes[0] in ('¥', 'Ã', '€', '£')` -/
def behavioural (ref : Str) : Bool := match ref with
  | c :: _ => c = '¥' || c = 'Ã' || c = '€' || c = '£'
  | [] => false

/-- 960-980: the net of one pin. -/
def pinNet (s : Sheet) (ref : Str) (st : St) (p : Pin) : St × Str :=
  if behavioural ref && p.mark then (st, "¥".toList)
  else match netAt s p.pos with
    | some n => (st, n)
    | none => match st.floating.lookup p.pos with
      | some n => (st, n)
      | none =>
        if behavioural ref then
          let n := '¥' :: showNat st.beh
          ({ st with beh := st.beh + 1, floating := st.floating ++ [(p.pos, n)] }, n)
        else
          let n := 'N' :: twoDigits (st.top + 1)
          ({ st with top := st.top + 1, floating := st.floating ++ [(p.pos, n)] }, n)

/-- 955-982: the ports of one component -/
def pinNets (s : Sheet) (ref : Str) : St → List Pin → St × List Str
  | st, [] => (st, [])
  | st, p :: ps =>
    let r := pinNet s ref st p
    let q := pinNets s ref r.1 ps
    (q.1, r.2 :: q.2)

/-- 932-983: the ports of all components, in file order. -/
def portsFrom (s : Sheet) : St → List Part → St × List (List Str)
  | st, [] => (st, [])
  | st, c :: cs =>
    let r := pinNets s c.ref st c.pins
    let q := portsFrom s r.1 cs
    (q.1, r.2 :: q.2)

/-- 903-982 -/
def ports (s : Sheet) (cs : List Part) : List (List Str) := (portsFrom s ⟨highest s, 0, []⟩ cs).2

end Model.QNets
