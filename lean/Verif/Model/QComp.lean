import Verif.Model.ParamRegex
import Verif.Model.Qsch
import Verif.Model.CompOps
/-
QSPICE schematics: components and their parameters, instructions, and saving (spicelib/editor/qsch_editor.py 378-530, 583-611, 1088-1135,
1146-1322; base_schematic.py 350-358, 413-428).

Simplifications: of a symbol only the child tags and the texts (attribute 8) of its text tags are kept, of a sheet only its text tags and which
components are on it. The coordinates of a new text are a parameter. Values and instructions are text. A call of set_component_parameters has one
keyword argument. A text is kept by set_attr as it is (texts starting with 0x: Props.Qsch, C38).
-/
namespace Model.QComp
open Model.PyStr
open Model.Asc (words)
open Model.Netlist (Perm)
open Model.Updates (UpdateType)
open Model.ParamRegex (findIter Match splice QText qualifier unqualify qFind qSet Change)

abbrev Str := List Char

/-- A child tag of a symbol. -/
inductive Tag where
  | text (s : Str)
  | pin
  | other (n : Nat)
  deriving DecidableEq, Repr

/-- A component: the child tags of its symbol, attributes['value'], and whether its tag is among those of the sheet. -/
structure Comp where
  items : List Tag
  value : Str
  onSheet : Bool
  deriving DecidableEq

structure Ed where
  perm : Perm
  comps : List (Str × Comp)
  texts : List QText
  calls : List (Str × Option Str × UpdateType)
  canvas : Bool
  deriving DecidableEq

inductive Err where
  | permission | readOnly | notFound | index | param | value | refdes | parse
  deriving DecidableEq, Repr

def Ed.get (ed : Ed) (ref : Str) : Option Comp := ed.comps.lookup ref

def Ed.put (ed : Ed) (ref : Str) (c : Comp) : Ed := { ed with comps := ed.comps.map (fun e => if e.1 = ref then (ref, c) else e) }

/-- base_schematic.py 418-421: end_update -/
def Ed.record (ed : Ed) (name : Str) (v : Option Str) (u : UpdateType) : Ed := { ed with calls := ed.calls ++ [(name, v, u)], canvas := true }

/-- `if permission == UpdatePermission.Inform: parent.end_update(...)` -/
def Ed.inform (ed : Ed) (name : Str) (v : Option Str) (u : UpdateType) : Ed := if ed.perm = .inform then ed.record name v u else ed

def textOf : Tag → Option Str
  | .text s => some s
  | _ => none

/-- `symbol.get_items('text')` and the text of each -/
def textsOf (items : List Tag) : List Str := items.filterMap textOf

/-! ### Parameters of components -/

/-- A key of the dictionary get_parameters returns. -/
inductive Key where
  | name (s : Str)
  | line (i : Nat)
  deriving DecidableEq, Repr

def putKey (k : Key) (v : Str) : List (Key × Str) → List (Key × Str)
  | [] => [(k, v)]
  | (k', w) :: d => if k' = k then (k', v) :: d else (k', w) :: putKey k v d

/-- 432-438: one text; the `else` of the `for` is always run. -/
def readText (d : List (Key × Str)) (i : Nat) (s : Str) : List (Key × Str) :=
  putKey (.line i) s ((findIter s).foldl (fun d m => putKey (.name m.name) m.value d) d)

def readTexts : Nat → List Str → List (Key × Str) → List (Key × Str)
  | _, [], d => d
  | i, s :: l, d => readTexts (i + 1) l (readText d i s)

/-- 417-440: get_parameters, of the texts after reference and value -/
def getParameters (c : Comp) : List (Key × Str) := readTexts 2 ((textsOf c.items).drop 2) []

/-- 470-477: the first match with exactly this name -/
def hit (k s : Str) : Option Match := (findIter s).find? (fun m => m.name = k)

/-- 478-492: what becomes of a text with the parameter; none when the whole tag is removed. -/
def rewrite (v : Option Str) (s : Str) (m : Match) : Option Str :=
  match v with
  | some w => some (splice s m.start m.stop w)
  | none => if m.stop - m.first = s.length then none else some (s.take m.first ++ s.drop m.stop)

/-- 472-501: the search through the texts from the value on, and the change of the first that has the parameter; `n` texts were passed. -/
def edit (k : Str) (v : Option Str) : Nat → List Tag → Option (List Tag)
  | _, [] => none
  | n, .text s :: l =>
    if n = 0 then (edit k v 1 l).map (.text s :: ·)
    else match hit k s with
      | some m => some (match rewrite v s m with | some t => .text t :: l | none => l)
      | none => (edit k v (n + 1) l).map (.text s :: ·)
  | n, .pin :: l => (edit k v n l).map (.pin :: ·)
  | n, .other a :: l => (edit k v n l).map (.other a :: ·)

/-- 508-515: where the new text goes -/
def place : Nat → Nat → List Tag → Nat
  | _, last, [] => last
  | i, _, .pin :: _ => i
  | i, _, .text _ :: l => place (i + 1) (i + 1) l
  | i, last, .other _ :: l => place (i + 1) last l

/-- 516-519 -/
def insertTag (items : List Tag) (t : Tag) : List Tag :=
  if place 0 0 items < items.length then items.take (place 0 0 items) ++ t :: items.drop (place 0 0 items) else items ++ [t]

/-- A new text tag is read from its own text (504-506, 1127-1129 and 1277): `head` is what stands before the quoted text. -/
def newTag (head body : Str) : Except Qsch.Err (Qsch.Tag × Str) := Qsch.parse ('«' :: head ++ '"' :: body ++ ['"', '»'])

/-- The text of a tag, when it is a text tag at all. -/
def tagText (t : Qsch.Tag) : Option Str :=
  if t.tokens.head? = some "text".toList then
    match t.getAttr 8 with
    | some (.text s) => some s
    | _ => none
  else none

/-- `text (x,y) 0.5 0 0 0x1000000 -1 -1 ` for component texts (505), with size 1 for texts of the sheet (1277) -/
def textHead (size : Str) (x y : Int) : Str :=
  "text (".toList ++ showInt x ++ ',' :: showInt y ++ ") ".toList ++ size ++ " 0 0 0x1000000 -1 -1 ".toList

/-- 442-524 and 1180-1187: set_component_parameters with one name. `x`, `y`: where the new text is placed on the canvas. -/
def setParameter (x y : Int) (ed : Ed) (ref k : Str) (v : Option Str) : Ed × Option Err :=
  match ed.get ref with
  | none => (ed, some .notFound)
  | some c =>
    if ed.perm = .deny then (ed, some .permission)
    else match edit k v 0 c.items with
      | some items =>
        ((ed.put ref { c with items := items }).inform (ref ++ ':' :: k) v (if v = none then .deleteComponentParameter else .updateComponentParameter), none)
      | none =>
        match v with
        | none => (ed, none)
        | some w =>
          match newTag (textHead "0.5".toList x y) (k ++ '=' :: w) with
          | .error _ => (ed, some .parse)
          | .ok (t, _) =>
            let tag := match tagText t with | some s => Tag.text s | none => Tag.other 0
            ({ (ed.put ref { c with items := insertTag c.items tag }).inform (ref ++ ':' :: k) v .addComponentParameter with canvas := true }, none)

/-- 1167-1178: get_component_parameters -/
def getComponentParameters (ed : Ed) (ref : Str) : Except Err (List (Key × Str)) :=
  match ed.get ref with
  | none => .error .notFound
  | some c => .ok (getParameters c)

/-! ### Values -/

/-- Replaces the text of the n-th text tag. -/
def setText (v : Str) : Nat → List Tag → List Tag
  | _, [] => []
  | 0, .text _ :: l => .text v :: l
  | n + 1, .text s :: l => .text s :: setText v n l
  | n, .pin :: l => .pin :: setText v n l
  | n, .other a :: l => .other a :: setText v n l

/-- 402-415: set_model; the assertion on the reference, the IndexError of a symbol without value -/
def setModel (ed : Ed) (ref v : Str) : Ed × Option Err :=
  match ed.get ref with
  | none => (ed, some .notFound)
  | some c =>
    if ed.perm = .deny then (ed, some .permission)
    else match textsOf c.items with
      | r :: _ :: _ =>
        if r = ref then ((ed.put ref { c with items := setText v 1 c.items, value := v }).inform ref (some v) .updateComponentValue, none)
        else (ed, some .refdes)
      | [r] => (ed, some (if r = ref then .index else .refdes))
      | [] => (ed, some .index)

/-- 1146-1151 -/
def setComponentValue (ed : Ed) (ref v : Str) : Ed × Option Err :=
  if ed.perm = .deny then (ed, some .readOnly) else setModel ed ref v

/-- 1158-1165 -/
def getComponentValue (ed : Ed) (ref : Str) : Except Err Str :=
  match ed.get ref with
  | none => .error .notFound
  | some c => .ok c.value

/-- 1209-1217: remove_component. The component stays in `components`. -/
def removeComponent (ed : Ed) (ref : Str) : Ed × Option Err :=
  if ed.perm = .deny then (ed, some .permission)
  else match ed.get ref with
    | none => (ed, some .notFound)
    | some c => if c.onSheet then ((ed.put ref { c with onSheet := false }).record ref none .deleteComponent, none) else (ed, some .value)

/-- 1203-1207: get_components() -/
def getComponents (ed : Ed) : List Str := ed.comps.map Prod.fst

/-! ### Instructions -/

def unique : List Str := [".AC".toList, ".DC".toList, ".TRAN".toList, ".NOISE".toList, ".TF".toList]

/-- `text.split()[0].upper()`; none is the IndexError -/
def command (s : Str) : Option Str := (words s).head?.map upper

/-- 1261-1272: the first text that is a simulation command, replaced; with the text it had. The inner none: no such text; the outer: IndexError. -/
def replaceFirst (i : Str) : List QText → Option (Option (List QText × Str))
  | [] => some none
  | t :: l =>
    if t.comment then (replaceFirst i l).map (Option.map (fun p => (t :: p.1, p.2)))
    else match command (unqualify t.text) with
      | none => none
      | some c =>
        if c ∈ unique then some (some ({ t with text := qualifier ++ i } :: l, unqualify t.text))
        else (replaceFirst i l).map (Option.map (fun p => (t :: p.1, p.2)))

/-- 1276-1278 -/
def append (x y : Int) (ed : Ed) (i : Str) : Ed × Option Err :=
  match newTag (textHead "1".toList x y) (qualifier ++ i) with
  | .error _ => (ed, some .parse)
  | .ok (t, _) => match tagText t with
    | some s => ({ ed with texts := ed.texts ++ [⟨false, s⟩] }, none)
    | none => (ed, none)

/-- 1250-1278: add_instruction -/
def addInstruction (x y : Int) (ed : Ed) (instruction : Str) : Ed × Option Err :=
  if ed.perm = .deny then (ed, some .permission)
  else
    let i := strip instruction
    match command i with
    | none => (ed, some .index)
    | some c =>
      if c ∈ unique then
        match replaceFirst i ed.texts with
        | none => (ed, some .index)
        | some (some (ts, old)) =>
          ((({ ed with texts := ts } : Ed).record "INSTRUCTION".toList (some old) .deleteInstruction).record "INSTRUCTION".toList (some i) .addInstruction, none)
        | some none => append x y ed i
      else if ".PARAM".toList.isPrefixOf c then (ed, some .param)
      else append x y (ed.record "INSTRUCTION".toList (some i) .addInstruction) i

def removeFirst (i : Str) : List QText → Option (List QText)
  | [] => none
  | t :: l =>
    if t.comment then (removeFirst i l).map (t :: ·)
    else if contains i t.text then some l
    else (removeFirst i l).map (t :: ·)

/-- 1281-1298: remove_instruction; the Bool is what it returns -/
def removeInstruction (ed : Ed) (i : Str) : Ed × Except Err Bool :=
  if ed.perm = .deny then (ed, .error .permission)
  else match removeFirst i ed.texts with
    | some ts => (({ ed with texts := ts } : Ed).record "INSTRUCTION".toList (some i) .deleteInstruction, .ok true)
    | none => (ed, .ok false)

/-- 1300-1322: remove_Xinstruction; `m` is `regex.match` -/
def removeX (ed : Ed) (m : Str → Bool) : Ed × Except Err Bool :=
  if ed.perm = .deny then (ed, .error .permission)
  else
    let out := ed.texts.filter (fun t => !t.comment && m (unqualify t.text))
    let ed' := out.foldl (fun (e : Ed) t => e.record "INSTRUCTION".toList (some (unqualify t.text)) .deleteInstruction)
      { ed with texts := ed.texts.filter (fun t => !(!t.comment && m (unqualify t.text))) }
    (ed', .ok (!out.isEmpty))

/-- 1099-1135: set_parameter -/
def setGlobal (ed : Ed) (p v : Str) : Ed × Option Err :=
  if ed.perm = .deny then (ed, some .permission)
  else
    let r := qSet ed.texts p v
    (({ ed with texts := r.1 } : Ed).inform p (some v) (match r.2 with | .updated => .updateParameter | .added => .addParameter), none)

/-! ### Saving -/

/-- base_schematic.py 423-424 -/
def updated (ed : Ed) : Bool := ed.canvas || !ed.calls.isEmpty

/-- 583-601: whether save_as writes the file (`same`: the path is that of the file loaded or saved last). -/
def writes (ed : Ed) (same : Bool) : Bool := updated ed || !same

end Model.QComp
