/-
What an LTspice "Export data as text" file with steps looks like, and what the tabular file made from it must be. Independent of the model.
-/
namespace Spec.Export
abbrev Str := List Char

/-- `a<TAB>b<TAB>c` -/
def tabs (l : List Str) : Str := List.intercalate ['\t'] l

/-- A step header: `Step Information: R=1k C=2n  (Run: 1/4)`. Every parameter is preceded by blanks (the first by those after the colon, minus
the one that is always there). -/
structure Head where
  params : List (Str × Str × Nat)      -- key, value, blanks after it
  word : Str                           -- "Run" or "Step"
  run : Str
  total : Str

def paramText (p : Str × Str × Nat) : Str := p.1 ++ '=' :: (p.2.1 ++ List.replicate p.2.2 ' ')

def Head.text (h : Head) : Str :=
  "Step Information: ".toList ++ h.params.flatMap paramText ++ '(' :: (h.word ++ ": ".toList ++ h.run ++ '/' :: (h.total ++ ")\n".toList))

def Head.keys (h : Head) : List Str := h.params.map (fun p => p.1)
def Head.values (h : Head) : List Str := h.params.map (fun p => p.2.1)

/-- Characters allowed in keys and values: letters, digits, `_`, `.` and `-` (`isWord` tells which are letters). -/
structure Head.Ok (isWord : Char → Bool) (h : Head) : Prop where
  some : h.params ≠ []
  chars : ∀ p ∈ h.params, ∀ c, c ∈ p.1 ∨ c ∈ p.2.1 → isWord c = true ∨ c = '.' ∨ c = '-'
  blanks : ∀ p ∈ h.params, 0 < p.2.2
  word : h.word = "Run".toList ∨ h.word = "Step".toList
  run : ∀ c ∈ h.run, c.isDigit = true
  total : ∀ c ∈ h.total, c.isDigit = true

/-- A line of data: a line terminator at the end and nowhere else; not a step line. -/
structure RowOk (r : Str) : Prop where
  eol : ∃ l : Str, r = l ++ ['\n'] ∧ '\n' ∉ l
  notStep : ¬ "Step Information:".toList <+: r

/-- The whole file: the line of titles, then the steps. -/
def fileText (titles : Str) (steps : List (Head × List Str)) : Str :=
  titles ++ steps.flatMap (fun s => s.1.text ++ s.2.flatten)

/-- The tabular file: titles once, then every data line behind its run number and parameter values. -/
def tabular (titles : Str) (first : Head) (steps : List (Head × List Str)) : Str :=
  tabs ("Run".toList :: first.keys ++ [titles]) ++
    steps.flatMap (fun s => s.2.flatMap (fun row => tabs (s.1.run :: s.1.values ++ [row])))

/-! ### Columns -/

/-- A data line given by its cells (no tabs or line ends inside). -/
def rowText (cells : List Str) : Str := tabs cells ++ ['\n']

/-- What LTSpiceExport takes for the cells of a line: the last one keeps the line end. -/
def withEol : List Str → List Str
  | [] => []
  | [a] => [a ++ ['\n']]
  | a :: b :: l => a :: withEol (b :: l)

/-- A line of at least one cell. -/
structure CellsOk (cells : List Str) : Prop where
  some : cells ≠ []
  clean : ∀ c ∈ cells, '\t' ∉ c ∧ '\n' ∉ c
  notStep : ¬ "Step Information:".toList <+: rowText cells

end Spec.Export
