import Verif.Model.AscSession
import Verif.Model.SchComp
/-
Sessions on LTspice schematics with set_component_parameters of any names: spicelib/editor/asc_editor.py 80-112 (get_parameters), 137-204 (set_parameters), 636-666, on the data of
Model.Asc; the other calls are those of Model.AscSession.

Simplifications: those of Model.AscSession and Model.SchComp (values are given as text or None; the permission is not denied; the journal is left out: Model.SchComp has both). An attribute
that is set to None cannot be written to a file: such a call gives `none`, like an exception.
-/
namespace Model.AscParts
open Model.PyStr Model.Asc
open Model.AscSession (Op getComp put)
open Model.SchComp (Dict Attr Shown PVal setKeys getParameters)

abbrev Str := List Char

/-- The attributes of a component, as Model.SchComp has them (asc_editor.py 80-112: texts, and other objects for the windows). -/
def dict (attrs : List (Str × AttrVal)) : Dict Attr := attrs.map (fun p => (p.1, match p.2 with | .str s => Attr.text s | .text _ => Attr.other 0))

/-- The attributes after a call (143-204): texts were put in, the other objects are those that were there. -/
def back (old : List (Str × AttrVal)) : Dict Attr → Option (List (Str × AttrVal))
  | [] => some []
  | (k, .text s) :: d => (back old d).map ((k, .str s) :: ·)
  | (k, .other _) :: d => (old.lookup k).bind (fun a => (back old d).map ((k, a) :: ·))
  | (_, .none) :: _ => none

/-- 642-666, 137-204: set_component_parameters. -/
def setParts (norm : Str → Str) (s : Sch) (r : Str) (kvs : Dict (Option Str)) : Option Sch :=
  (getComp s r).bind (fun c =>
    match setKeys norm r kvs none (dict c.attrs) [] with
    | (d, _, none) => (back c.attrs d).map (fun a => put s r (fun c => { c with attrs := a }))
    | _ => none)

inductive Cmd where
  | base (op : Op)
  | parts (r : Str) (kvs : Dict (Option Str))

def step (norm : Str → Str) (s : Sch) : Cmd → Option Sch
  | .base op => Model.AscSession.step s op
  | .parts r kvs => setParts norm s r kvs

def run (norm : Str → Str) (s : Sch) : List Cmd → Option Sch
  | [] => some s
  | c :: cs => (step norm s c).bind (fun s => run norm s cs)

/-- The text of a parameter that get_component_parameters (636-640, 80-112) shows; it is read with try_convert_value. -/
def getPart (s : Sch) (r k : Str) : Option Str :=
  (getComp s r).bind (fun c => (getParameters (dict c.attrs)).bind (fun d => (d.lookup k).bind (fun x =>
    match x with
    | .par (.conv v) => some v
    | .par (.set v) => some v
    | .attr _ => none)))

end Model.AscParts
