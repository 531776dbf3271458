/-
Model of `SimAnalysis.add_log_data` and `read_logfiles` (/repo/spicelib/sim/tookit/sim_analysis.py 189-216).
Python lists are mutable objects, so columns are modelled as addresses of a heap: line 196 stores the list object of
the log itself in the result (no copy), lines 201 and 203 copy.
-/
namespace Model.LogMerge

variable {V : Type}

/-- The heap of list objects; `next` is the next free address. -/
structure Heap (V : Type) where
  get : Nat → List V
  next : Nat

/-- Assignment of the contents of a list object. -/
def Heap.put (h : Heap V) (a : Nat) (v : List V) : Heap V := { h with get := fun x => if x = a then v else h.get x }

/-- A new list object with the given contents (at address `next`). -/
def Heap.alloc (h : Heap V) (v : List V) : Heap V := ⟨(h.put h.next v).get, h.next + 1⟩

/-- A dictionary name → list object (insertion order). -/
abbrev Cols := List (String × Nat)

/-- The part of a `LogfileData` that matters here (log/logfile_data.py: stepset, dataset, step_count). -/
structure Log where
  stepset : Cols
  dataset : Cols
  stepCount : Nat

/-- Loop body of sim_analysis.py 194-198. -/
def addStep (p : Heap V × Cols) (x : String × Nat) : Heap V × Cols :=
  match p.2.lookup x.1 with
  | none => (p.1, p.2 ++ [x])                                          -- 196: the same list object
  | some b => (p.1.put b (p.1.get b ++ p.1.get x.2), p.2)                -- 198: extend in place

/-- Loop body of sim_analysis.py 199-203. -/
def addData (p : Heap V × Cols) (x : String × Nat) : Heap V × Cols :=
  match p.2.lookup x.1 with
  | none => (p.1.alloc (p.1.get x.2), p.2 ++ [(x.1, p.1.next)])   -- 201: copy
  | some b => (p.1.put b (p.1.get b ++ p.1.get x.2), p.2)                -- 203

/-- `add_log_data` (sim_analysis.py 189-204). `none` models a log that could not be read (191-192). -/
def addLog (p : Heap V × Log) (log : Option Log) : Heap V × Log :=
  match log with
  | none => p
  | some l =>
    let (h1, steps) := l.stepset.foldl addStep (p.1, p.2.stepset)
    let (h2, data) := l.dataset.foldl addData (h1, p.2.dataset)
    (h2, ⟨steps, data, p.2.stepCount + l.stepCount⟩)

/-- `read_logfiles` (sim_analysis.py 206-216): start from an empty `LogfileData` and add each log. -/
def merge (h : Heap V) (logs : List (Option Log)) : Heap V × Log :=
  logs.foldl addLog (h, ⟨[], [], 0⟩)

end Model.LogMerge
