import Verif.Model.ParamRegex
import Verif.Model.CompOps
/-
Components of LTspice schematics: spicelib/editor/asc_editor.py 52-205 (AscComponent) and the calls of AscEditor that use them (598-676);
base_schematic.py 322-520 (get_component, end_update).

An attribute is a text, None, or another object (windows and sub-circuits, whose names start with '_'). Values are given as text or None
(numbers go through format_eng first, Model.FloatFormat). A parameter value is what the user set, or try_convert_value of a text of the file;
`norm s` is the text of try_convert_value(s), i.e. `f"{try_convert_value(s)}"`.
-/
namespace Model.SchComp
open Model.PyStr
open Model.Netlist (Perm)
open Model.Updates (UpdateType)
open Model.ParamRegex (findIter)

abbrev Str := List Char

/-- A Python dict. -/
abbrev Dict (V : Type) := List (Str × V)

def put {V : Type} (k : Str) (v : V) : Dict V → Dict V
  | [] => [(k, v)]
  | (k', w) :: d => if k' = k then (k', v) :: d else (k', w) :: put k v d

/-- `d.pop(key)` of an existing key. -/
def pop {V : Type} (k : Str) (d : Dict V) : Dict V := d.filter (fun e => e.1 ≠ k)

inductive Attr where
  | text (s : Str)
  | none
  | other (n : Nat)
  deriving DecidableEq, Repr

/-- A value of a parameter inside SpiceLine: as set, or try_convert_value of a text. -/
inductive PVal where
  | set (s : Str)
  | conv (s : Str)
  deriving DecidableEq, Repr

def PVal.shown (norm : Str → Str) : PVal → Str
  | .set s => s
  | .conv s => norm s

inductive Err where
  | permission | notFound | type | unbound
  deriving DecidableEq, Repr

def value_ : Str := "Value".toList
def value2 : Str := "Value2".toList
def spiceLine : Str := "SpiceLine".toList
def spiceLine2 : Str := "SpiceLine2".toList
/-- 47: LTSPICE_PARAMETERS -/
def known : List Str := [value_, value2, "SpiceModel".toList, spiceLine, spiceLine2]
/-- 48: LTSPICE_PARAMETERS_REDUCED -/
def reduced : List Str := [spiceLine, spiceLine2]

/-- 101-106: the dictionary of the pairs of a line. -/
def pairsOf (s : Str) : Dict PVal := (findIter s).foldl (fun d m => put m.name (.conv m.value) d) []

/-- An entry of get_parameters(as_dicts=True): the attribute, or the dictionary of its pairs when there are any. -/
inductive Entry where
  | attr (a : Attr)
  | dict (d : Dict PVal)
  deriving DecidableEq, Repr

/-- 95-108 for one known attribute; `none` is the TypeError of finditer on something that is not a text. -/
def entryOf (k : Str) (a : Attr) : Option Entry :=
  if k ∈ reduced then
    match a with
    | .text s => some (if pairsOf s = [] then .attr a else .dict (pairsOf s))
    | _ => none
  else some (.attr a)

/-- 80-112: get_parameters(as_dicts=True). -/
def entries : Dict Attr → Option (Dict Entry)
  | [] => some []
  | (k, a) :: l =>
    if k ∈ known then
      match entryOf k a, entries l with
      | some e, some es => some ((k, e) :: es)
      | _, _ => none
    else entries l

/-- What get_parameters() gives for a name. -/
inductive Shown where
  | attr (a : Attr)
  | par (p : PVal)
  deriving DecidableEq, Repr

/-- 95-112: get_parameters(). `acc` is the dictionary built so far; `none` is the TypeError. -/
def getAux : Dict Attr → Dict Shown → Option (Dict Shown)
  | [], acc => some acc
  | (k, a) :: l, acc =>
    if k ∈ known then
      if k ∈ reduced then
        match a with
        | .text s => getAux l ((pairsOf s).foldl (fun d e => put e.1 (.par e.2) d) (put k (.attr a) acc))
        | _ => none
      else getAux l (put k (.attr a) acc)
    else getAux l acc

def getParameters (c : Dict Attr) : Option (Dict Shown) := getAux c []

/-- `' '.join([f'{k}={v}' ...])` -/
def joinPairs (norm : Str → Str) : Dict PVal → Str
  | [] => []
  | [e] => e.1 ++ '=' :: e.2.shown norm
  | e :: f :: l => e.1 ++ '=' :: e.2.shown norm ++ ' ' :: joinPairs norm (f :: l)

/-- `a in b` of texts -/
def infixOf (a : Str) : Str → Bool
  | [] => a.isPrefixOf []
  | c :: b => a.isPrefixOf (c :: b) || infixOf a b

/-- The attributes, the last update_type (unbound before the first), and whether the key was found. -/
structure Work where
  attrs : Dict Attr
  kind : Option UpdateType
  found : Bool
  deriving DecidableEq

/-- 161-179: one turn of the loop over SpiceLine and SpiceLine2; the error is raised by `.pop` or the assignment on a text (in which `key in`
is a search for a substring). -/
def lookIn (norm : Str → Str) (ps : Dict Entry) (key : Str) (v : Option Str) (pk : Str) (w : Work) : Work × Option Err :=
  match ps.lookup pk with
  | none => (w, none)
  | some (.dict d) =>
    if key ∈ d.map Prod.fst then
      match v with
      | none => (⟨put pk (.text (joinPairs norm (pop key d))) w.attrs, some .deleteComponentParameter, true⟩, none)
      | some s => (⟨put pk (.text (joinPairs norm (put key (.set s) d))) w.attrs, some .updateComponentParameter, true⟩, none)
    else (w, none)
  | some (.attr (.text t)) => if infixOf key t then (w, some .type) else (w, none)
  | some (.attr _) => (w, some .type)

/-- 181-203: the key was not found. -/
def addKey (norm : Str → Str) (ps : Dict Entry) (key : Str) (v : Option Str) (w : Work) : Work × Option Err :=
  match v with
  | none => (w, none)
  | some s =>
    if key ∈ known then ({ w with attrs := put key (.text s) w.attrs, kind := some .updateComponentParameter }, none)
    else match ps.lookup spiceLine with
      | some (.dict d) => ({ w with attrs := put spiceLine (.text (joinPairs norm (put key (.set s) d))) w.attrs, kind := some .addComponentParameter }, none)
      | some (.attr _) => (w, some .type)
      | none => ({ w with attrs := put spiceLine (.text (key ++ '=' :: s)) w.attrs, kind := some .addComponentParameter }, none)

/-- 143-203: one key (value already formatted), without the call of end_update. -/
def setKey (norm : Str → Str) (attrs : Dict Attr) (kind : Option UpdateType) (key : Str) (v : Option Str) : Work × Option Err :=
  match entries attrs with
  | none => (⟨attrs, kind, false⟩, some .type)
  | some ps =>
    if key ∈ ps.map Prod.fst then
      (⟨put key (match v with | some s => .text s | none => .none) attrs, some .updateComponentParameter, true⟩, none)
    else
      match lookIn norm ps key v spiceLine ⟨attrs, kind, false⟩ with
      | (w, some e) => (w, some e)
      | (w, none) =>
        match lookIn norm ps key v spiceLine2 w with
        | (w, some e) => (w, some e)
        | (w, none) => if w.found then (w, none) else addKey norm ps key v w

/-- The schematic: permission, components by reference (in order), and the calls of end_update. -/
structure Ed where
  perm : Perm
  comps : Dict (Dict Attr)
  calls : List (Str × Option Str × UpdateType)
  deriving DecidableEq

/-- base_schematic.py 350-358: get_component without ':'. -/
def Ed.get (ed : Ed) (ref : Str) : Option (Dict Attr) := ed.comps.lookup ref

/-- 143-204: the loop over the keyword arguments of set_parameters. -/
def setKeys (norm : Str → Str) (ref : Str) : Dict (Option Str) → Option UpdateType → Dict Attr → List (Str × Option Str × UpdateType) →
    Dict Attr × List (Str × Option Str × UpdateType) × Option Err
  | [], _, attrs, calls => (attrs, calls, none)
  | (key, v) :: kvs, kind, attrs, calls =>
    match setKey norm attrs kind key (v.map strip) with
    | (w, some e) => (w.attrs, calls, some e)
    | (w, none) =>
      match w.kind with
      | none => (w.attrs, calls, some .unbound)
      | some u => setKeys norm ref kvs w.kind w.attrs (calls ++ [(ref ++ ':' :: key, v.map strip, u)])

/-- 642-666: set_component_parameters (with 137-141 of set_parameters). The schematic afterwards and the exception, if any. -/
def setComponentParameters (norm : Str → Str) (ed : Ed) (ref : Str) (kvs : Dict (Option Str)) : Ed × Option Err :=
  match ed.get ref with
  | none => (ed, some .notFound)
  | some c =>
    if ed.perm = .deny then (ed, some .permission)
    else
      match setKeys norm ref kvs none c ed.calls with
      | (c', calls, e) => ({ ed with comps := put ref c' ed.comps, calls := calls }, e)

/-- 636-640: get_component_parameters. -/
def getComponentParameters (ed : Ed) (ref : Str) : Except Err (Dict Shown) :=
  match ed.get ref with
  | none => .error .notFound
  | some c => match getParameters c with
    | none => .error .type
    | some d => .ok d

/-- 57-75 and 598-619: set_component_value of a component of this sheet. -/
def setComponentValue (ed : Ed) (ref v : Str) : Ed × Option Err :=
  match ed.get ref with
  | none => (ed, some .notFound)
  | some c =>
    if value_ ∈ c.map Prod.fst then
      if ed.perm = .deny then (ed, some .permission)
      else ({ ed with comps := put ref (put value_ (.text v) c) ed.comps, calls := ed.calls ++ [(ref, some v, .updateComponentValue)] }, none)
    else (ed, some .notFound)

/-- 77-83 and 629-634: get_component_value; the TypeError is that of joining something that is not a text. -/
def getComponentValue (ed : Ed) (ref : Str) : Except Err Str :=
  match ed.get ref with
  | none => .error .notFound
  | some c =>
    match c.lookup value_, c.lookup value2 with
    | none, none => .error .notFound
    | some (.text a), none => .ok a
    | none, some (.text b) => .ok b
    | some (.text a), some (.text b) => .ok (a ++ ' ' :: b)
    | _, _ => .error .type

/-- 673-677: remove_component of a component of this sheet (the permission is read and not used). -/
def removeComponent (ed : Ed) (ref : Str) : Except Err Ed :=
  match ed.get ref with
  | none => .error .notFound
  | some _ => .ok { ed with comps := pop ref ed.comps, calls := ed.calls ++ [(ref, some [], .deleteComponent)] }

/-- 621-624: set_element_model changes the symbol of the component; no permission, no record. (The symbol is kept here as attribute `_symbol`.) -/
def setElementModel (ed : Ed) (ref model : Str) : Except Err Ed :=
  match ed.get ref with
  | none => .error .notFound
  | some c => .ok { ed with comps := put ref (put "_symbol".toList (.text model) c) ed.comps }

end Model.SchComp
