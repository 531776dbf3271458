import Verif.Model.Params
/-
Writing a component that was made from data and not read from a netlist: spicelib/editor/primitives.py 90-113 (Component.__init__
with keyword arguments) and spicelib/editor/spice_components.py 389-429 (SpiceComponent.write_lines when the component has no text).

Simplifications: nodes are their names; a value is the text that value_str gives for it (format_eng for numbers, Model.FloatUnit);
what f"{value}" gives for a parameter is a text, except for True.
-/
namespace Model.NewComp
open Model.Params (keywords)

abbrev Str := List Char

/-- The value of a parameter: True, or anything else with its text. -/
inductive PVal where
  | flag
  | text (s : Str)
  deriving DecidableEq, Repr

/-- f"{value}" -/
def PVal.str : PVal → Str
  | .flag => "True".toList
  | .text s => s

/-- What the component keeps: `model` says whether there is an attribute of that name. -/
structure New where
  ref : Str
  ports : List Str
  value : Option Str
  model : Bool
  params : List (Str × PVal)
  deriving DecidableEq, Repr

/-- A keyword argument. -/
inductive Arg where
  | names (l : List Str)
  | dict (d : List (Str × PVal))
  | word (s : Str)
  deriving DecidableEq, Repr

/-- primitives.py 80-83 -/
def portsIds : List Str := ["ports".toList, "p".toList, "pins".toList]
def valueIds : List Str := ["value".toList, "val".toList, "v".toList, "value_str".toList, "model".toList, "Value".toList]
def paramsIds : List Str := ["params".toList, "parameters".toList, "param".toList]
def refIds : List Str := ["reference".toList, "ref".toList, "designator".toList]

/-- primitives.py 105-113: one keyword argument. An argument of another kind than its name asks for is not modelled (nothing is done). -/
def New.take (c : New) (kw : Str × Arg) : New :=
  if kw.1 ∈ portsIds then (match kw.2 with | .names l => { c with ports := l } | _ => c)
  else if kw.1 ∈ paramsIds then (match kw.2 with | .dict d => { c with params := d } | _ => c)
  else if kw.1 ∈ valueIds then (match kw.2 with | .word s => { c with value := some s } | _ => c)
  else if kw.1 ∈ refIds then (match kw.2 with | .word s => { c with ref := s } | _ => c)
  else c

/-- primitives.py 90-113: SpiceComponent(obj='', **kwargs) -/
def make (kws : List (Str × Arg)) : New := kws.foldl New.take ⟨[], [], none, false, []⟩

/-- The loop over the parameters: what was written, `count` and `line_size`. -/
structure Wr where
  out : Str
  count : Nat
  size : Nat
  deriving DecidableEq, Repr

/-- spice_components.py 414-421: the text of one parameter. -/
def item (kv : Str × PVal) : Str :=
  if kv.1 ∈ keywords then (if kv.2 = .flag then ' ' :: kv.1 else []) else ' ' :: (kv.1 ++ '=' :: kv.2.str)

/-- spice_components.py 411-413 -/
def Wr.start (s : Wr) : Wr := if s.size = 0 then ⟨s.out ++ ['+'], s.count + 1, 1⟩ else s

/-- spice_components.py 411-426: one parameter. -/
def Wr.param (s : Wr) (kv : Str × PVal) : Wr :=
  let s := s.start
  let s : Wr := ⟨s.out ++ item kv, s.count + (item kv).length, s.size + (item kv).length⟩
  if s.size > 80 then ⟨s.out ++ ['\n'], s.count, 0⟩ else s

/-- spice_components.py 400-407: what comes before the parameters. -/
def head (c : New) : Str :=
  c.ref ++ c.ports.flatMap (fun p => ' ' :: p) ++ (match c.value with | some v => ' ' :: v | none => []) ++
    (if c.model then ' ' :: c.value.getD "None".toList else [])

/-- spice_components.py 400-429: the text written and the number returned. -/
def write (c : New) : Str × Nat :=
  let s := c.params.foldl Wr.param ⟨head c, (head c).length, (head c).length⟩
  (s.out ++ ['\n'], s.count + 1)

end Model.NewComp
