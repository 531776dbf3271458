import Verif.Model.CompLine
import Verif.Spec.Grammar
import Verif.Props.LogRead
/-
What a QSPICE log and the .meas file beside it say. Rows of values are described by the grammar of C22.
-/
namespace Spec.QspiceLog
open Model.PyStr (isSpace)
open Model.CompLine (WordClass)
open Model.SplitLine (Val)
open Props.LogRead (Tok)

abbrev Str := List Char

/-- A line of the log: `n of m steps: .step a=1 b=2`, or any other text. -/
inductive LogLine where
  | step (lead number total gap : Str) (t0 : Tok) (toks : List Tok)
  | other (t : Str)

def LogLine.text : LogLine → Str
  | .step lead number total gap t0 toks =>
    lead ++ number ++ " of ".toList ++ total ++ " steps:".toList ++ gap ++ ".step ".toList ++ t0.text ++ toks.flatMap (fun t => ' ' :: t.text)
  | .other t => t

def Digits (s : Str) : Prop := s ≠ [] ∧ ∀ c ∈ s, c.isDigit = true

def LogLine.Ok : LogLine → Prop
  | .step lead number total gap t0 toks => (∀ c ∈ lead, c = ' ' ∨ c = '\t') ∧ Digits number ∧ Digits total ∧ (gap ≠ [] ∧ ∀ c ∈ gap, c = ' ' ∨ c = '\t') ∧
      ∀ t ∈ t0 :: toks, t.Clean
  | .other t => '\n' ∉ t ∧ ¬ ".step ".toList <:+: t

/-- The steps: number and assignments. -/
def stepsOf (ls : List LogLine) : List (Str × List Tok) :=
  ls.filterMap (fun l => match l with | .step _ n _ _ t0 toks => some (n, t0 :: toks) | .other _ => none)

/-- The value of a decimal numeral. -/
def numeral (s : Str) : Nat := Nat.ofDigitChars 10 s 0

/-- The steps are numbered k, k + 1, … -/
def Numbered : Nat → List (Str × List Tok) → Prop
  | _, [] => True
  | k, s :: ss => numeral s.1 = k ∧ Numbered (k + 1) ss

/-! ### The .meas file -/

/-- A measurement: the two words after `.meas`, the rest of the line, and the rows of values. -/
structure Block where
  t1 : Str
  t2 : Str
  expr : Str
  rows : List (Str × List Val)

def kinds : List Str := ["tran".toList, "ac".toList, "dc".toList, "op".toList]

/-- The name is the first of the two words unless that is a kind of simulation. -/
def Block.name (b : Block) : Str := if b.t1 ∈ kinds then b.t2 else b.t1

/-- The number of columns: the values of the first row. -/
def Block.width (b : Block) : Nat := (b.rows.head?.map (fun r => r.2.length)).getD 0

/-- The title of a column: in a stepped simulation the first is `step`; then the name, and the name with a number. -/
def titleOf (stepped : Bool) (name : Str) (j : Nat) : Str :=
  if stepped then (if j = 0 then "step".toList else if j = 1 then name else name ++ '_' :: Model.PyStr.showNat (j - 1))
  else if j = 0 then name else name ++ '_' :: Model.PyStr.showNat j

def Block.titles (stepped : Bool) (b : Block) : List Str := (List.range b.width).map (titleOf stepped b.name)

def Block.column (b : Block) (j : Nat) : List Val := b.rows.map (fun r => r.2.getD j .missing)

def Block.lines (b : Block) : List Str := (".meas ".toList ++ b.t1 ++ ' ' :: b.t2 ++ ' ' :: b.expr) :: b.rows.map (fun r => r.1)

/-- A line that is not the title of a measurement. -/
def Plain (t : Str) : Prop := '\n' ∉ t ∧ ¬ ".meas ".toList <+: t

structure Block.Ok (w : WordClass) (stepped : Bool) (b : Block) : Prop where
  t1 : b.t1 ≠ [] ∧ ∀ c ∈ b.t1, w.word c = true
  t2 : b.t2 ≠ [] ∧ ∀ c ∈ b.t2, w.word c = true
  expr : '\n' ∉ b.expr
  rows : ∀ r ∈ b.rows, Plain r.1 ∧ Spec.Grammar.Line none (r.1 ++ ['\n']) r.2 ∧ b.width ≤ r.2.length
  enough : b.rows ≠ [] → (if stepped then 2 else 1) ≤ b.width
  name : stepped = true → Model.LogData.lower b.name ≠ "step".toList

def fileText (ls : List Str) : Str := ls.flatMap (fun l => l ++ ['\n'])

end Spec.QspiceLog
