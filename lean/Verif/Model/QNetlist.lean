import Verif.Model.Qsch
import Verif.Model.ParamRegex
/-
Writing the netlist of a QSPICE schematic: spicelib/editor/qsch_editor.py 171-175 (decap), 267-270 and 323-351 (get_items, get_text,
get_text_attr), 609-791 (write_spice_to_file), 793-836 (save_netlist).

Simplifications: an exception is `none`, and what was written before it is not kept; \w is the ASCII word characters; texts hold no line
break (a file cannot give them one); where a library is found is a parameter (Model.Search), on a computer that does not shorten paths;
the value of an unnamed Verilog block is its text; log messages are left out. A sub-schematic is the number of the schematic in a list,
so that the recursion of 767 follows the structure.
-/
namespace Model.QNetlist
open Model.PyStr Model.Qsch
open Model.ParamRegex (wordChar)

/-- 267-270 -/
def getItems (t : Tag) (name : Str) : List Tag := t.items.filter (fun x => x.tokens.head? = some name)

/-- 323-343; `none` is the IndexError. -/
def getText (t : Tag) (label : Str) (default : Option Str) : Option Str :=
  match getItems t (label ++ [':']) with
  | [a] => match a.tokens[1]? with
    | some x => some x
    | none => some (default.getD [])
  | _ => default

/-- 345-351; `none` is the IndexError. -/
def textAttr (t : Tag) (i : Nat) : Option Str :=
  (t.tokens[i]?).map (fun a => if a.head? = some '"' ∧ a.getLast? = some '"' then (a.drop 1).dropLast else a)

/-- The part of a line after `=<`, up to the last `>`: what is inside, and what follows. -/
def upToLast (s : Str) : Option (Str × Str) :=
  let r := s.reverse.dropWhile (· ≠ '>')
  match r with
  | [] => none
  | _ :: inside => some (inside.reverse, (s.reverse.takeWhile (· ≠ '>')).reverse)

/-- 171-175: `re.sub(r"(\w+)=<(.*)>", r"\1=\2", s)`. At the first word that is followed by `=<` and, somewhere later, by `>`, the first
`<` after the `=` and the last `>` are dropped; the rest has no `>` any more, so there is no second match. -/
def decap : Str → Str
  | [] => []
  | c :: s =>
    if wordChar c then
      match s with
      | '=' :: '<' :: r => match upToLast r with
        | some (inside, rest) => c :: '=' :: (inside ++ rest)
        | none => c :: decap s
      | _ => c :: decap s
    else c :: decap s

/-- A component of the editor: its tag, whether it is enabled, its nets, the text of its value, and the schematic found for it. -/
structure Comp where
  tag : Tag
  enabled : Bool
  ports : List Str
  value : Str
  sub : Option Nat

/-- Joined by blanks -/
def spaced (l : List Str) : Str := Qsch.join l

/-- `ports += ['¥'] * (n - len(ports))` (656-667) -/
def padTo (n : Nat) (ports : List Str) : List Str := ports ++ List.replicate (n - ports.length) ['¥']

/-- 656-667 -/
def padded (typ : Str) (ports : List Str) : List Str :=
  if typ = ['¥'] ∨ typ = ['Ã'] then padTo 16 ports
  else if typ = ['€'] then padTo 32 ports
  else if typ = ['£'] then padTo 64 ports
  else ports

/-- 633-644: symbol and type; `none` is an exception. -/
def symbolType (c : Comp) (sym : Tag) : Option (Str × Str) :=
  if 1 < sym.tokens.length then
    match textAttr sym 1, getText sym "type".toList none with
    | some s, some t => some (s, t)
    | _, _ => none
  else
    match getText sym "type".toList (some "X".toList) with
    | some ('Ø' :: _) => some (c.value, ['Ø'])
    | _ => some ("X".toList, "X".toList)

/-- 646-647; `none` is the IndexError of `refdes[0]` or `typ[0]`. -/
def fullRef (refdes typ : Str) : Option Str :=
  match refdes, typ with
  | c :: _, d :: _ => some (if c = d then refdes else d :: '´' :: refdes)
  | _, _ => none

/-- 649-653 -/
def parameters : List Tag → Option Str
  | [] => some []
  | t :: l => match textAttr t 8, parameters l with
    | some s, some r => some (' ' :: (decap s ++ r))
    | _, _ => none

/-- `text.replace("\\n", "\n")` (680): the two characters of the file become a line break. -/
def breakLines : Str → Str
  | '\\' :: 'n' :: r => '\n' :: breakLines r
  | c :: r => c :: breakLines r
  | [] => []

/-- 676-679 with one of the two keywords: `^\|\.(model|subckt) (\w+) (.*)`. -/
def renamed (refdes kw lib : Str) : Option Str :=
  let head := '|' :: '.' :: (kw ++ [' '])
  if head.isPrefixOf lib then
    let rest := lib.drop head.length
    let name := rest.takeWhile wordChar
    match name, rest.dropWhile wordChar with
    | _ :: _, ' ' :: args => some ('.' :: (kw ++ ' ' :: (refdes ++ '•' :: (name ++ ' ' :: args))))
    | _, _ => none
  else none

/-- 675-682: the text of an embedded model or sub-circuit. -/
def embedded (refdes lib : Str) : Str :=
  breakLines (((renamed refdes "model".toList lib).or (renamed refdes "subckt".toList lib)).getD lib) ++ ['\n']

/-- 737-751: one pin of a Verilog block, `(inputs, outputs, common)` so far. A pin that cannot be understood is left out. -/
def verilogPin (acc : Str × Str × Str) (port config : Str) : Str × Str × Str :=
  match splitOn ',' config with
  | [direction, type] =>
    let d := lower direction
    let item := ' ' :: (port ++ '´' :: type)
    if d = "in".toList ∨ d = "input".toList then (acc.1 ++ item, acc.2.1, acc.2.2)
    else if d = "out".toList ∨ d = "output".toList then (acc.1, acc.2.1 ++ item, acc.2.2)
    else if d = "common".toList ∨ d = "inout".toList then (acc.1, acc.2.1, acc.2.2 ++ item)
    else acc
  | _ => acc

def verilogPins : Str × Str × Str → List Str → List Str → Str × Str × Str
  | acc, p :: ps, c :: cs => verilogPins (verilogPin acc p c) ps cs
  | acc, _, _ => acc

/-- 687-761: the line of a component; `none` is the IndexError of `ports[3]`. -/
def compLine (config : List (Str × List Str)) (refdes symbol typ : Str) (ports : List Str) (model params : Str) (texts1 : Str) : Option Str :=
  let nets := spaced ports
  let plain := fun (l : List Str) => some (spaced l ++ params ++ ['\n'])
  if typ = ['X'] then plain [refdes, nets, model]
  else if typ = "QP".toList ∨ typ = "QN".toList then
    if symbol = "NPNS".toList ∨ symbol = "PNPS".toList ∨ symbol = "LPNP".toList then
      match ports[3]? with
      | none => none
      | some p => plain [refdes, spaced (ports.set 3 ('[' :: p ++ [']'])), model, if contains "PNP".toList symbol then "PNP".toList else "NPN".toList]
    else plain [refdes, nets, "[0]".toList, model, symbol]
  else if typ = "MN".toList ∨ typ = "MP".toList then
    let symbol := if symbol = "NMOSB".toList ∨ symbol = "PMOSB".toList then symbol.take 4 else symbol
    match ports with
    | [_, _, p2] => plain [refdes, nets, p2, model, symbol]
    | _ => plain [refdes, nets, model, symbol]
  else if typ = ['T'] then plain [refdes, nets, decap texts1]
  else if typ = "JN".toList ∨ typ = "JP".toList then
    plain [refdes, nets, model, if "Pwr".toList.isPrefixOf symbol then symbol.drop 3 else symbol]
  else if typ = ['×'] then plain [refdes, '«' :: (nets ++ ['»']), model]
  else if typ = "ZP".toList ∨ typ = "ZN".toList then plain [refdes, nets, model, symbol]
  else if typ = ['Ø'] then
    let basic := if '´' ∈ refdes then refdes.drop 2 else refdes
    match config.lookup basic with
    | none => some []
    | some pins =>
      if pins.length < ports.length then some []
      else
        let g := verilogPins ([], [], []) ports pins
        plain [refdes, '«' :: (strip g.1 ++ ['»']), '«' :: (strip g.2.1 ++ ['»']), '«' :: (strip g.2.2 ++ ['»']), [], symbol]
  else plain [refdes, nets, model]

/-- What one component contributes (625-761): text before its line, its line, a library to include, and a block to define: model, ports
and schematic. -/
structure Out where
  text : Str
  lib : Option Str
  block : Option (Str × Str × Nat)

/-- `" ".join(pin.get_attr(QSCH_SYMBOL_PIN_NET) for pin in pins)` (692); a net that is no text raises. -/
def pinNames : List Tag → Option (List Str)
  | [] => some []
  | p :: l => match p.getAttr 8, pinNames l with
    | some (.text s), some r => some (s :: r)
    | _, _ => none

/-- 625-761 for one component. -/
def component (config : List (Str × List Str)) (refdes : Str) (c : Comp) : Option Out :=
  match getItems c.tag "symbol".toList with
  | [sym] =>
    if !c.enabled then some ⟨[], none, none⟩
    else match symbolType c sym with
    | none => none
    | some (symbol, typ) => match fullRef refdes typ with
      | none => none
      | some ref =>
        let texts := getItems sym "text".toList
        match parameters (texts.drop 2), (texts[1]?).bind (fun t => textAttr t 8), getText sym "library file".toList (some []) with
        | some params, some model0, some lib =>
          let emb : Bool := lib.head? = some '|'
          let model := if emb then ref ++ '•' :: model0 else model0
          let ports := padded typ c.ports
          match compLine config ref symbol typ ports model params model0 with
          | none => none
          | some line =>
            let library := if emb ∨ lib = [] then none else some lib
            let text := (if emb then embedded ref lib else []) ++ line
            if typ = ['X'] then
              match c.sub with
              | none => some ⟨text, library, none⟩
              | some k => match pinNames (getItems sym "pin".toList) with
                | none => none
                | some names => some ⟨text, library, some (model, spaced names, k)⟩
            else some ⟨text, library, none⟩
        | _, _, _ => none
  | _ => some ⟨[], none, none⟩

/-- `libraries_to_include`, `subcircuits_to_write` and what was written so far (618-619). -/
structure Acc where
  text : Str
  libs : List Str
  blocks : List (Str × Str × Nat)

/-- 683-685 and 689-696: a library or a model that is known already is not added. -/
def Acc.add (a : Acc) (o : Out) : Acc :=
  { text := a.text ++ o.text,
    libs := match o.lib with
      | some l => if l ∈ a.libs then a.libs else a.libs ++ [l]
      | none => a.libs,
    blocks := match o.block with
      | some b => if a.blocks.any (fun e => e.1 = b.1) then a.blocks else a.blocks ++ [b]
      | none => a.blocks }

/-- 625-761 -/
def components (config : List (Str × List Str)) : Acc → List (Str × Comp) → Option Acc
  | a, [] => some a
  | a, (r, c) :: l => match component config r c with
    | none => none
    | some o => components config (a.add o) l

/-- `lines.split('\\n')` (775): at the two characters backslash and n. -/
def splitBreaks : Str → List Str
  | '\\' :: 'n' :: r => [] :: splitBreaks r
  | c :: r => match splitBreaks r with
    | [] => [[c]]
    | w :: ws => (c :: w) :: ws
  | [] => [[]]

/-- `lines.lstrip(QSCH_TEXT_INSTR_QUALIFIER)` (774) -/
def unqualify (s : Str) : Str := s.dropWhile (fun c => c = 'ï' || c = '»' || c = '¿')

/-- 771-777: what a text tag contributes. A text that is no string raises, as does a tag with too few attributes. -/
def textLines (t : Tag) : Option Str :=
  match t.getAttr 8, t.getAttr 4 with
  | some (.text s), some a =>
    if a = .int 1 then some [] else some ((splitBreaks (unqualify s)).flatMap (fun l => strip l ++ ['\n']))
  | _, _ => none

def allTextLines : List Tag → Option Str
  | [] => some []
  | t :: l => match textLines t, allTextLines l with
    | some a, some b => some (a ++ b)
    | _, _ => none

/-- 779-789: `find` gives the path under which the library is found. -/
def libLine (find : Str → Option Str) (lib : Str) : Str := ".lib ".toList ++ (find lib).getD lib ++ ['\n']

/-- A schematic: its components in the order of the dictionary, its top tag, and the schematics of its blocks. -/
inductive Sch where
  | mk (comps : List (Str × Comp)) (top : Tag) (subs : List Sch)

/-- 763-769: the definition of one block, given what is written for each sub-schematic. -/
def blockText (inner : List (Option Str)) (b : Str × Str × Nat) : Option Str :=
  match inner[b.2.2]? with
  | some (some body) => some ('\n' :: (".subckt ".toList ++ b.1 ++ ' ' :: (b.2.1 ++ '\n' :: (body ++ (".ends ".toList ++ b.1 ++ "\n\n".toList)))))
  | _ => none

def blockTexts (inner : List (Option Str)) : List (Str × Str × Nat) → Option Str
  | [] => some []
  | b :: l => match blockText inner b, blockTexts inner l with
    | some x, some y => some (x ++ y)
    | _, _ => none

/-- 609-791, given what is written for each sub-schematic. -/
def sheetText (config : List (Str × List Str)) (find : Str → Option Str) (comps : List (Str × Comp)) (top : Tag) (inner : List (Option Str)) : Option Str :=
  match components config ⟨[], [], []⟩ comps with
  | none => none
  | some a => match blockTexts inner a.blocks, allTextLines (getItems top "text".toList) with
    | some b, some t => some (a.text ++ b ++ t ++ a.libs.flatMap (libLine find))
    | _, _ => none

mutual
/-- 609-791; sub-schematics are written without the configuration of Verilog blocks (767). -/
def writeSub (find : Str → Option Str) : Sch → Option Str
  | .mk comps top subs => sheetText [] find comps top (writeSubs find subs)
def writeSubs (find : Str → Option Str) : List Sch → List (Option Str)
  | [] => []
  | s :: l => writeSub find s :: writeSubs find l
end

/-- 609-791 called by save_netlist -/
def write (config : List (Str × List Str)) (find : Str → Option Str) : Sch → Option Str
  | .mk comps top subs => sheetText config find comps top (writeSubs find subs)

/-- 793-836 for a .net or .cir file: `path` is the absolute path of the schematic. -/
def saveNetlist (config : List (Str × List Str)) (find : Str → Option Str) (path : Str) (s : Sch) : Option Str :=
  (write config find s).map (fun t => "* ".toList ++ path ++ '\n' :: (t ++ ".end\n".toList))

end Model.QNetlist
