import Verif.Model.AscInstr
import Verif.Model.ParamRegex
/-
An editing session on an LTspice schematic, call after call on the data of Model.Asc: set_component_value and set_component_parameters of an attribute
(spicelib/editor/asc_editor.py 57-75, 137-152, 598-619, 642-666), set_element_model (621-624), set_component_position (523-529), set_parameter (569-596: Model.ParamRegex.ascSet),
add_instruction, remove_instruction, remove_Xinstruction (747-822: Model.AscInstr), remove_component (673-677), scale (base_schematic.py 363-398), save_netlist and opening the saved file.

Simplifications: those of Model.Asc, Model.AscInstr and Model.ParamRegex; values are given as text; the component is one of this sheet (a reference with ':' is not: `none`); a sheet with ports is not scaled here (a port
and its label are the same object: Model.Geom);
of set_component_parameters only a name that the component has as one of its attributes (lines 155-159; the others are in Model.SchComp); the permission and the journal are left
out (Model.SchComp); `none` is an exception.
-/
namespace Model.AscSession
open Model.PyStr Model.Asc
open Model.ParamRegex (ascSet ascGet)

abbrev Str := List Char

/-- base_schematic.py 329-358: get_component of a component of this sheet. -/
def getComp (s : Sch) (r : Str) : Option Comp := if ':' ∈ r then none else s.comps.lookup r

/-- A change of the component: the object in the dictionary is changed in place. -/
def changeIn (r : Str) (f : Comp → Comp) : List (Str × Comp) → List (Str × Comp)
  | [] => []
  | (k, c) :: l => if k = r then (k, f c) :: l else (k, c) :: changeIn r f l

def put (s : Sch) (r : Str) (f : Comp → Comp) : Sch := { s with comps := changeIn r f s.comps }

/-- `self.attributes[key] = value` -/
def setAttr (k v : Str) (c : Comp) : Comp := { c with attrs := dset k (.str v) c.attrs }

/-- A text attribute of a component. -/
def textOf (c : Comp) (k : Str) : Option Str :=
  match c.attrs.lookup k with
  | some (.str v) => some v
  | _ => none

/-- 57-75, 598-619: set_component_value. -/
def setValue (s : Sch) (r v : Str) : Option Sch :=
  (getComp s r).bind (fun c => if "Value".toList ∈ c.attrs.map Prod.fst then some (put s r (setAttr "Value".toList v)) else none)

/-- 47: LTSPICE_PARAMETERS -/
def known : List Str := ["Value".toList, "Value2".toList, "SpiceModel".toList, "SpiceLine".toList, "SpiceLine2".toList]

/-- 137-159, 642-666: set_component_parameters with one of the attributes of the component. -/
def setKnown (s : Sch) (r k v : Str) : Option Sch :=
  (getComp s r).bind (fun c => if k ∈ known ∧ k ∈ c.attrs.map Prod.fst then some (put s r (setAttr k (strip v))) else none)

/-- 621-624: set_element_model. -/
def setModel (s : Sch) (r m : Str) : Option Sch := (getComp s r).map (fun _ => put s r (fun c => { c with symbol := m }))

/-- 523-529: set_component_position. -/
def move (s : Sch) (r : Str) (x y : Int) (rot : Nat) : Option Sch := (getComp s r).map (fun _ => put s r (fun c => { c with x := x, y := y, rot := rot }))

/-- 673-677: remove_component. -/
def removeComp (s : Sch) (r : Str) : Option Sch := (getComp s r).map (fun _ => { s with comps := s.comps.filter (fun p => p.1 ≠ r) })

/-- base_schematic.py 363-398: scale; `fx`, `fy` are `round_fun(X * scale_x + offset_x)` and the same for Y. -/
def scale (fx fy : Int → Int) (s : Sch) : Sch :=
  let text := fun t : Text => { t with x := fx t.x, y := fy t.y }
  let line := fun l : Line => { l with x1 := fx l.x1, y1 := fy l.y1, x2 := fx l.x2, y2 := fy l.y2 }
  { s with
    comps := s.comps.map (fun p => (p.1, { p.2 with x := fx p.2.x, y := fy p.2.y }))
    wires := s.wires.map line
    labels := s.labels.map text
    directives := s.directives.map text
    lines := s.lines.map line
    shapes := s.shapes.map (fun h => { h with points := h.points.map (fun q => (fx q.1, fy q.2)) }) }

inductive Op where
  | value (r v : Str)
  | attr (r k v : Str)
  | model (r m : Str)
  | move (r : Str) (x y : Int) (rot : Nat)
  | remove (r : Str)
  | param (p v : Str)
  | instruct (i : Str)
  | drop (i : Str)
  | dropAll (m : Str → Bool)
  | scale (fx fy : Int → Int)
  | reopen

def step (s : Sch) : Op → Option Sch
  | .value r v => setValue s r v
  | .attr r k v => setKnown s r k v
  | .model r m => setModel s r m
  | .move r x y rot => move s r x y rot
  | .remove r => removeComp s r
  | .param p v => (ascSet s p v).toOption.map Prod.fst
  | .instruct i => (Model.AscInstr.add s i).toOption.map Prod.fst
  | .drop i => some (Model.AscInstr.remove s i).1
  | .dropAll m => some (Model.AscInstr.removeX s m).1
  | .scale fx fy => if s.ports = [] then some (scale fx fy s) else none
  | .reopen => (save s).bind Model.Asc.read

def run (s : Sch) : List Op → Option Sch
  | [] => some s
  | op :: ops => (step s op).bind (fun s => run s ops)

/-- 77-83, 629-634: get_component_value. -/
def getValue (s : Sch) (r : Str) : Option Str :=
  (getComp s r).bind (fun c => match textOf c "Value".toList, textOf c "Value2".toList with
    | some a, some b => some (a ++ ' ' :: b)
    | some a, none => some a
    | none, some b => some b
    | none, none => none)

/-- A text attribute of a component of the sheet (get_component_parameters, 636-640, without the pairs of the SpiceLines: Model.SchComp). -/
def getAttr (s : Sch) (r k : Str) : Option Str := (getComp s r).bind (fun c => textOf c k)

/-- 523-525: get_component_position. -/
def getPlace (s : Sch) (r : Str) : Option (Int × Int × Nat) := (getComp s r).map (fun c => (c.x, c.y, c.rot))

def getSymbol (s : Sch) (r : Str) : Option Str := (getComp s r).map Comp.symbol

end Model.AscSession
