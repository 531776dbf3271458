import Verif.Model.FourierFile
/-
The tables in the file of Fourier analyses.
-/
namespace Spec.FourierFile
open Model.LogFile (Harmonic Fourier)
open Model.FourierFile (Show Str signalText opt summaryTitles harmonicTitles)
open Model.PyStr (showNat showInt)

/-- The cells of the step: the value of every stepped variable. -/
def stepCells {V F : Type} (sh : Show V F) (stepset : List (Str × List V)) (no : Nat) : List Str := stepset.filterMap (fun p => (p.2[no]?).map sh.value)

/-- The row of an analysis whose first harmonic is `h`. -/
def summaryRow {V F : Type} (sh : Show V F) (signal : Option Str) (periods : Str) (a : Fourier F) (h : Harmonic F) : List Str :=
  [signalText signal, periods, sh.float a.dc, sh.float h.frequency, showNat a.harmonics.length, opt sh a.phd, opt sh a.thd]

/-- The row of a harmonic. -/
def harmonicRow {V F : Type} (sh : Show V F) (signal : Option Str) (a : Fourier F) (h : Harmonic F) : List Str :=
  [signalText signal, sh.float a.periods, showInt h.number, sh.float h.frequency, sh.float h.component, sh.float h.normalized, sh.float h.phase, sh.float h.normPhase]

/-- The row of an analysis as a whole, with the cells of its step if there are steps; "all" stands for a number of periods below one (with steps) or -1. -/
def analysisRow {V F : Type} (sh : Show V F) (stepset : List (Str × List V)) (count : Nat) (signal : Option Str) (a : Fourier F) (h : Harmonic F) : List Str :=
  (if count > 0 then stepCells sh stepset a.step.toNat else []) ++
    summaryRow sh signal (if (if count > 0 then sh.less1 a.periods else sh.minus1 a.periods) then "all".toList else sh.float a.periods) a h

/-- The rows of the first table: signal by signal, within a signal step by step. -/
def summaryRows {V F : Type} (sh : Show V F) (stepset : List (Str × List V)) (count : Nat) (fourier : List (Option Str × List (Fourier F))) : List (List Str) :=
  fourier.flatMap (fun e =>
    (if count > 0 then (List.range count).flatMap (fun (no : Nat) => e.2.filter (fun a => decide (a.step = (no : Int)))) else e.2).flatMap
      (fun a => a.harmonics.head?.toList.map (analysisRow sh stepset count e.1 a)))

/-- The rows of the second table: signal by signal, the harmonics of every analysis of a step of the sweep. -/
def harmonicRows {V F : Type} (sh : Show V F) (stepset : List (Str × List V)) (count : Nat) (fourier : List (Option Str × List (Fourier F))) : List (List Str) :=
  fourier.flatMap (fun e =>
    (if count > 0 then e.2.filter (fun a => decide (0 ≤ a.step ∧ a.step < (count : Int))) else e.2).flatMap
      (fun a => a.harmonics.map (fun h => (if count > 0 then stepCells sh stepset a.step.toNat else []) ++ harmonicRow sh e.1 a h)))

/-- The whole file, as rows of cells. -/
def table {V F : Type} (sh : Show V F) (stepset : List (Str × List V)) (count : Nat) (fourier : List (Option Str × List (Fourier F))) : List (List Str) :=
  [(if count > 0 then stepset.map Prod.fst else []) ++ summaryTitles] ++ summaryRows sh stepset count fourier ++
  [[[]], [[]], ["Harmonic Analysis".toList], (if stepset.isEmpty then [[]] else stepset.map Prod.fst) ++ harmonicTitles] ++
  harmonicRows sh stepset count fourier ++ [[[]], [[]]]

end Spec.FourierFile
