/-
What the logs of stepped simulations look like, which samples belong to which step, and what a table of columns is. Independent of the model.
-/
namespace Spec.RawSteps
abbrev Str := List Char

/-- The parameters of a step: name and value, as written in the log. -/
abbrev Params := List (Str × Str)

/-- `R=1k C=2n` -/
def paramText (ps : Params) : Str := List.intercalate [' '] (ps.map (fun p => p.1 ++ '=' :: p.2))

/-- At least one parameter, distinct names, no blanks, equal signs or line ends in names and values. -/
structure ParamsOk (ps : Params) : Prop where
  some : ps ≠ []
  distinct : (ps.map Prod.fst).Nodup
  chars : ∀ p ∈ ps, ∀ c, c ∈ p.1 ∨ c ∈ p.2 → c ≠ ' ' ∧ c ≠ '=' ∧ c ≠ '\n' ∧ c ≠ '\r'

/-- A line of the log of LTspice: a step or anything else. -/
inductive LtLine where
  | step (ps : Params)
  | other (text : Str)

def LtLine.text : LtLine → Str
  | .step ps => ".step ".toList ++ paramText ps
  | .other t => t

def LtLine.Ok : LtLine → Prop
  | .step ps => ParamsOk ps
  | .other t => '\n' ∉ t ∧ ¬ ".step".toList <+: t

/-- A line of the log of QSPICE: a step (its number, the number of steps, the blanks before `.step`) or anything else. -/
inductive QLine where
  | step (number total blanks : Str) (ps : Params)
  | other (text : Str)

def QLine.text : QLine → Str
  | .step n t b ps => n ++ " of ".toList ++ t ++ " steps:".toList ++ b ++ ".step ".toList ++ paramText ps
  | .other t => t

def QLine.Ok : QLine → Prop
  | .step n t b ps => n ≠ [] ∧ (∀ c ∈ n, c.isDigit = true) ∧ t ≠ [] ∧ (∀ c ∈ t, c.isDigit = true) ∧ b ≠ [] ∧ (∀ c ∈ b, c = ' ' ∨ c = '\t') ∧ ParamsOk ps
  | .other t => '\n' ∉ t ∧ ¬ ".step ".toList <:+: t

/-- The log: every line followed by a line feed. -/
def logText (lines : List Str) : Str := lines.flatMap (fun l => l ++ ['\n'])

/-- The steps of a log in the order of their lines. -/
def ltSteps (ls : List LtLine) : List Params := ls.filterMap (fun l => match l with | .step ps => some ps | .other _ => none)
def qSteps (ls : List QLine) : List Params := ls.filterMap (fun l => match l with | .step _ _ _ ps => some ps | .other _ => none)

/-- Where the steps of an axis begin: wherever its initial value occurs. -/
def starts {α : Type} [DecidableEq α] (axis : List α) : List Nat := (List.range axis.length).filter (fun i => axis[i]? = axis[0]?)

/-- The samples of step `k` in a column, given where the steps begin: from there to the next beginning, or to the end. -/
def part {β : Type} (begins : List Nat) (column : List β) (k : Nat) : List β :=
  (column.take (begins.getD (k + 1) column.length)).drop (begins.getD k column.length)

/-- A table as text: a line of titles, then one line for every row. -/
def table (sep : Str) (titles : List Str) (rows : List (List Str)) : Str :=
  (titles :: rows).flatMap (fun r => List.intercalate sep r ++ ['\n'])

end Spec.RawSteps
