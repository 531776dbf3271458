import Mathlib.Data.Rat.Floor
import Verif.Model.PyStr
/-
What a runner reports of its runs: SimRunner.sim_info (spicelib/sim/sim_runner.py 349-382) and the duration in the messages of a run
(format_time_difference, spicelib/sim/run_task.py 46-59, used at 190-203).

Simplifications: times are exact rationals, not negative; the values of the dictionary are the attributes of the task.
-/
namespace Model.RunInfo
open Model.PyStr (showNat)

abbrev Str := List Char

/-- `f"{n:0wd}"` for n ≥ 0 -/
def zeros (w n : Nat) : Str := List.replicate (w - (showNat n).length) '0' ++ showNat n

/-- run_task.py 46-59 -/
def duration (t : ℚ) : Str :=
  let secs := ⌊t⌋.toNat
  let ms := ⌊(t - secs) * 1000⌋.toNat
  let hours := secs / 3600
  let minutes := secs % 3600 / 60
  let seconds := secs % 3600 % 60
  if hours = 0 then
    if minutes = 0 then zeros 2 seconds ++ '.' :: (zeros 4 ms ++ " secs".toList)
    else zeros 2 minutes ++ ':' :: (zeros 2 seconds ++ '.' :: zeros 4 ms)
  else zeros 2 hours ++ ':' :: (zeros 2 minutes ++ ':' :: (zeros 2 seconds ++ '.' :: zeros 4 ms))

/-- The attributes of a completed RunTask; `A` is whatever the attributes are (paths, return code, texts, times), `E` an edit. -/
structure Task (A E : Type) where
  runno : Nat
  netlist : A
  raw : A
  log : A
  retcode : A
  exception : A
  callback : A
  start : A
  stop : A
  edits : Option (List E)

/-- An entry of the dictionary. -/
structure Info (A E : Type) where
  fields : List (Str × A)
  edits : Option (List E)

/-- sim_runner.py 375-380: `if task.edits:` is false for None and for no edits. -/
def info {A E : Type} (t : Task A E) : Info A E where
  fields := [("netlist_file".toList, t.netlist), ("raw_file".toList, t.raw), ("log_file".toList, t.log), ("retcode".toList, t.retcode),
    ("exception_text".toList, t.exception), ("callback_return".toList, t.callback), ("start_time".toList, t.start), ("stop_time".toList, t.stop)]
  edits := match t.edits with
    | none => none
    | some [] => none
    | some l => some l

/-- `rv[key] = v`: replaced in place or appended. -/
def put {V : Type} (d : List (Nat × V)) (k : Nat) (v : V) : List (Nat × V) :=
  if d.any (fun e => e.1 == k) then d.map (fun e => if e.1 = k then (k, v) else e) else d ++ [(k, v)]

/-- sim_runner.py 371-382 -/
def simInfo {A E : Type} (completed : List (Task A E)) : List (Nat × Info A E) := completed.foldl (fun rv t => put rv t.runno (info t)) []

end Model.RunInfo
