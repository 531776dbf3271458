import Verif.Spec.NetBlocks
import Verif.Spec.CompLine
/-
Specification: a netlist with the lines of included files in place of the include lines, and lines that need no change.
-/
namespace Spec.NetSave
open Model.Netlist (Str)
open Spec.NetBlocks
open Spec.CompLine (Line Short Shape ShortKind)

mutual
/-- The lines of a block, with the text `inc s` in place of every include line `s`. -/
def Block.inlined (inc : Str → Str) : Block → List Str
  | .line s => if kindOf s = some .incl then [inc s] else [s]
  | .subckt h b t => h :: (inlinedOf inc b ++ [t])
  | .control h b t => h :: (b ++ [t])
def inlinedOf (inc : Str → Str) : List Block → List Str
  | [] => []
  | b :: bs => Block.inlined inc b ++ inlinedOf inc bs
end

mutual
/-- The include lines of a block. -/
def Block.includes : Block → List Str
  | .line s => if kindOf s = some .incl then [s] else []
  | .subckt _ b _ => includesOf b
  | .control _ _ _ => []
def includesOf : List Block → List Str
  | [] => []
  | b :: bs => Block.includes b ++ includesOf bs
end

/-- No blanks around the line, one line break at its end. -/
def Tidy (s : Str) : Prop := Model.PyStr.strip s ++ ['\n'] = s

/-- The line of a component of the grammar, one space before every node, blanks are spaces. `name` says which names of parameters are
allowed. -/
def CompOk (word : Char → Bool) (name : Str → Prop) (s : Str) : Prop :=
  (∃ (l : Line) (sh : Shape), s = l.text ++ ['\n'] ∧ l.Ok word sh ∧ (∀ i ∈ l.items, name i.2.name) ∧ l.Spaced ∧ ∀ n ∈ l.nodes, n.1 = [' ']) ∨
  (∃ (l : Short) (k : ShortKind), s = l.text ++ ['\n'] ∧ l.Ok word k ∧ l.Spaced ∧ (∀ n ∈ l.nodes, n.1 = [' ']) ∧ (k = .coupling ∨ l.tail = []))

mutual
/-- Directives are tidy, components are of the grammar. -/
def Block.neat (word : Char → Bool) (name : Str → Prop) : Block → Prop
  | .line s => kindOf s = some .text ∨ kindOf s = some .incl ∨ (kindOf s = some .other ∧ Tidy s) ∨ CompOk word name s
  | .subckt h b t => Tidy h ∧ allNeat word name b ∧ Tidy t
  | .control h b t => ∀ l ∈ h :: (b ++ [t]), Model.PyStr.rstrip l ++ ['\n'] = l
def allNeat (word : Char → Bool) (name : Str → Prop) : List Block → Prop
  | [] => True
  | b :: bs => Block.neat word name b ∧ allNeat word name bs
end

/-- `.include name ; comment`: the keyword in any case, blanks, the name, blanks, and perhaps a comment. -/
structure Include where
  key : Str
  gap : Str
  name : Str
  blanks : Str
  comment : Str

def Include.text (i : Include) : Str := i.key ++ i.gap ++ i.name ++ i.blanks ++ i.comment ++ ['\n']

structure Include.Ok (i : Include) : Prop where
  key : ∃ k : Str, i.key = '.' :: k ∧ k.map Char.toUpper ∈ ["INC".toList, "INCLUDE".toList, "LIB".toList]
  gap : i.gap ≠ [] ∧ ∀ c ∈ i.gap, Model.PyStr.isSpace c = true
  name : i.name ≠ [] ∧ ∀ c ∈ i.name, c ≠ ';' ∧ c ≠ '*' ∧ c ≠ '\n'
  ends : (∀ c, i.name.head? = some c → Model.PyStr.isSpace c = false) ∧ ∀ c, i.name.getLast? = some c → Model.PyStr.isSpace c = false
  blanks : ∀ c ∈ i.blanks, Model.PyStr.isSpace c = true
  comment : i.comment = [] ∨ ((i.comment.head? = some ';' ∨ i.comment.head? = some '*') ∧ '\n' ∉ i.comment)

end Spec.NetSave
