import Verif.Model.RunSnap
import Verif.Model.FastWorst
/-
`FastWorstCaseAnalysis.run_analysis` (spicelib/sim/tookit/fast_worst_case.py 83-313) as a program on the netlist editor: what is set, what is run, and what is done with the measurements.

Simplifications: those of Model.RunSnap; the elements are given with the texts of their two values (value_change 107-133; the numbers: Model.Analysis), and are distinct; every simulation succeeds and gives the
measurement, which is an exact rational and depends on the text of the netlist file only; the files are not removed at the end (`cleanup_files`). The dictionaries `max_setting`, `min_setting` are lists of booleans in
the order of the elements (as in Model.FastWorst, which says what is measured without saying how the netlist is brought there).
-/
namespace Model.FastFiles
open Model.EditSave Model.CompLine
open Model.Params (PV)
open Model.Stepper (What)
open Model.RunSnap (St act acts setOp)

abbrev Str := List Char

/-- An element under analysis: how it is set, its name, and the texts of its two values. -/
structure Elem where
  kind : What
  name : Str
  max : Str
  min : Str
  deriving DecidableEq

variable (w : WordClass) (numeric : Str → Bool) (shown : PV → Str) (included : Str → Option Str) (circuit : Str) (meas : Str → ℚ)

/-- 135-143: `set_ref_to(ref, max if b else min)`. -/
def setTo (s : St) (a : Elem) (b : Bool) : Option St := act w numeric shown included circuit s (.op (setOp a.kind a.name (if b then a.max else a.min)))

/-- 145-155: a run and the measurement of its log. -/
def runMeasure (s : St) : Option (St × ℚ) :=
  (act w numeric shown included circuit s .run).bind (fun s => (s.folder.getLast?).map (fun f => (s, meas f.2)))

/-- 179-186 and the reading of the measurements (188-201): one more element at its maximum each time. -/
def cumulate : List Elem → St → Option (St × List ℚ)
  | [], s => some (s, [])
  | a :: l, s =>
    (setTo w numeric shown included circuit s a true).bind (fun s =>
      (runMeasure w numeric shown included circuit meas s).bind (fun p =>
        (cumulate l p.1).map (fun q => (q.1, p.2 :: q.2))))

/-- 206-212: the elements that are not to be at their maximum are set to their minimum. -/
def lower : List Elem → List Bool → St → Option St
  | a :: l, b :: bs, s => (if b then some s else setTo w numeric shown included circuit s a false).bind (lower l bs)
  | _, _, s => some s

/-- 253-258: all the elements are set. -/
def setEach : List Elem → List Bool → St → Option St
  | a :: l, b :: bs, s => (setTo w numeric shown included circuit s a b).bind (setEach l bs)
  | _, _, s => some s

/-- 222-248: the verification of the maximum, from element `i` on, `todo` elements being left. `none` is an exception (`iterator(...)`, line 242). -/
def checkMax (els : List Elem) (set : List Bool) (maxVal : ℚ) : (todo i : ℕ) → St → Option St
  | 0, _, s => some s
  | todo + 1, i, s =>
    match els[i]?, set[i]? with
    | some a, some b =>
      (setTo w numeric shown included circuit s a (!b)).bind (fun s =>
        (runMeasure w numeric shown included circuit meas s).bind (fun p =>
          if p.2 > maxVal then none
          else (setTo w numeric shown included circuit p.1 a b).bind (checkMax els set maxVal todo (i + 1))))
    | _, _ => none

/-- 265-291: the verification of the minimum, with at most `fuel` turns (`none` when they are not enough). -/
def checkMin (els : List Elem) : (fuel : ℕ) → List Bool → ℚ → (i : ℕ) → St → Option (St × List Bool × ℚ)
  | 0, _, _, _, _ => none
  | fuel + 1, set, v, i, s =>
    match els[i]? with
    | none => some (s, set, v)
    | some a => match set[i]? with
      | none => none
      | some b =>
        (setTo w numeric shown included circuit s a (!b)).bind (fun s =>
          (runMeasure w numeric shown included circuit meas s).bind (fun p =>
            if p.2 < v then (setTo w numeric shown included circuit p.1 a (!b)).bind (checkMin els fuel (Model.FastWorst.toggle set i) p.2 0)
            else (setTo w numeric shown included circuit p.1 a b).bind (checkMin els fuel set v (i + 1))))

/-- The netlist of the file with the recorded instructions (`_reset_netlist`, `play_instructions`: 172-173, 310-311). -/
def begun (setup : List Model.Session.Op) (s : St) : Option St := acts w numeric shown included circuit s (.reset :: setup.map .op)

/-- 214-220: the expected maximum: a run when an element has been lowered, otherwise the last measurement. -/
def expected (set : List Bool) (last : ℚ) (s : St) : Option (St × ℚ) :=
  if set.any (! ·) then runMeasure w numeric shown included circuit meas s else some (s, last)

/-- 172-313. What is returned, and the editor and the files in the end. -/
def analyse (els : List Elem) (setup : List Model.Session.Op) (fuel : ℕ) (s : St) : Option (St × Model.FastWorst.Result) :=
  (begun w numeric shown included circuit setup s).bind (fun s =>
  (runMeasure w numeric shown included circuit meas s).bind (fun nominal =>
  (cumulate w numeric shown included circuit meas els nominal.1).bind (fun c =>
  (lower w numeric shown included circuit els (Model.FastWorst.settings (nominal.2 :: c.2)) c.1).bind (fun s =>
  (expected w numeric shown included circuit meas (Model.FastWorst.settings (nominal.2 :: c.2)) ((nominal.2 :: c.2).getLastD 0) s).bind (fun m =>
  (checkMax w numeric shown included circuit meas els (Model.FastWorst.settings (nominal.2 :: c.2)) m.2 els.length 0 m.1).bind (fun s =>
  (setEach w numeric shown included circuit els ((Model.FastWorst.settings (nominal.2 :: c.2)).map (! ·)) s).bind (fun s =>
  (runMeasure w numeric shown included circuit meas s).bind (fun p =>
  (checkMin w numeric shown included circuit meas els fuel ((Model.FastWorst.settings (nominal.2 :: c.2)).map (! ·)) p.2 0 p.1).bind (fun q =>
  (begun w numeric shown included circuit setup q.1).map (fun s =>
    (s, ⟨nominal.2, q.2.2, Model.FastWorst.settings (nominal.2 :: c.2), m.2, q.2.1⟩)))))))))))

end Model.FastFiles
