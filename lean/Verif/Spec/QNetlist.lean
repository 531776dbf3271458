import Verif.Model.QNetlist
import Verif.Model.Asc
/-! What a component of a QSPICE schematic says, and what its line in a netlist should say. -/
namespace Spec.QNetlist
open Model.Qsch Model.QNetlist

/-- The children of a tag with this name. -/
def children (t : Tag) (name : Str) : List Tag := t.items.filter (fun x => x.tokens.head? = some name)

/-- A token without the quotes around it. -/
def unquoted (t : Tag) (i : Nat) : Option Str :=
  (t.tokens[i]?).map (fun a => if a.head? = some '"' ∧ a.getLast? = some '"' then (a.drop 1).dropLast else a)

/-- What the drawing says about a component. -/
structure Dev where
  name : Str
  typ : Str
  value : Str
  params : List Str
  lib : Str

/-- The name and the type of a symbol: both written in it; or none of them, which is a block, or a Verilog block named by the value. -/
inductive Kind (c : Comp) (sym : Tag) : Str → Str → Prop where
  | named {name typ : Str} {tt : Tag} (h1 : unquoted sym 1 = some name) (h2 : children sym "type:".toList = [tt]) (h3 : tt.tokens[1]? = some typ) : Kind c sym name typ
  | block (h1 : sym.tokens.length ≤ 1)
      (h2 : children sym "type:".toList = [] ∨ ∃ tt typ, children sym "type:".toList = [tt] ∧ tt.tokens[1]? = some typ ∧ typ.head? ≠ some 'Ø') : Kind c sym ['X'] ['X']
  | verilog {tt : Tag} {typ : Str} (h1 : sym.tokens.length ≤ 1) (h2 : children sym "type:".toList = [tt]) (h3 : tt.tokens[1]? = some typ)
      (h4 : typ.head? = some 'Ø') : Kind c sym c.value ['Ø']

/-- The symbol of the component says this: its kind, its texts, which are the reference, the value and the parameters, and its library. -/
def Says (c : Comp) (sym : Tag) (d : Dev) : Prop :=
  Kind c sym d.name d.typ ∧
    (∃ t0 t1 ts, children sym "text".toList = t0 :: t1 :: ts ∧ unquoted t1 8 = some d.value ∧ ts.map (fun t => unquoted t 8) = d.params.map some) ∧
    ((children sym "library file:".toList = [] ∧ d.lib = []) ∨ ∃ lt, children sym "library file:".toList = [lt] ∧ lt.tokens[1]? = some d.lib)

/-- The component is enabled and has one symbol, which says this. -/
def Draws (c : Comp) (d : Dev) : Prop := c.enabled = true ∧ ∃ sym, children c.tag "symbol".toList = [sym] ∧ Says c sym d

/-- The reference in the netlist: preceded by the letter of the type and an acute accent when it does not start with that letter. -/
def shownRef (ref typ : Str) : Str := if ref.head? = typ.head? then ref else typ.take 1 ++ '´' :: ref

/-- The words of a text, at blanks. -/
def words (s : Str) : List Str := Model.Asc.words s

/-- Types with a line of their own kind. -/
def special : List Str := ["QP", "QN", "MN", "MP", "T", "JN", "JP", "×", "ZP", "ZN", "Ø", "¥", "Ã", "€", "£"].map String.toList

/-- A word: not empty, no blank in it. -/
def IsWord (w : Str) : Prop := w ≠ [] ∧ ∀ c ∈ w, Model.PyStr.isSpace c = false

/-- The parameters as they are written: `name=<value>` without the angle brackets. -/
def paramWords (ps : List Str) : List Str := ps.flatMap (fun p => words (decap p))

/-- The first of each name, in order: names once, each the first with its name, nothing forgotten. -/
def Firsts {α β : Type} [DecidableEq β] (name : α → β) (all chosen : List α) : Prop :=
  chosen.Sublist all ∧ (chosen.map name).Nodup ∧ ∀ b, b ∈ chosen ↔ all.find? (fun x => name x = name b) = some b

/-- What a text of the sheet contributes: nothing when it is a comment; otherwise its lines, without the qualifier in front and without
blanks at the ends of each. -/
def TextSays (t : Tag) (out : Str) : Prop :=
  ∃ s a, t.getAttr 8 = some (.text s) ∧ t.getAttr 4 = some a ∧
    out = if a = .int 1 then [] else ((splitBreaks (unqualify s)).map (fun l => Model.PyStr.strip l ++ ['\n'])).flatten

end Spec.QNetlist
