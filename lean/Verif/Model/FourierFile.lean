import Verif.Model.LogFile
/-
The file with the Fourier analyses: LTSpiceLogReader.export_data (spicelib/log/ltsteps.py 466-540), what it adds to LogfileData.export_data (Model/LogData).

How Python prints a number is a parameter. An exception in the middle (an analysis without harmonics: IndexError) is `none`; what was written before it
stays in the file and is not modelled.
-/
namespace Model.FourierFile
open Model.LogFile (Harmonic Fourier)
open Model.PyStr

abbrev Str := List Char

/-- How values of steps and numbers are printed (`f"{x}"`), and the two comparisons with a number of periods (484, 496). -/
structure Show (V F : Type) where
  value : V → Str
  float : F → Str
  less1 : F → Bool
  minus1 : F → Bool

/-- `f"{x}"` of a number or None -/
def opt {V F : Type} (sh : Show V F) : Option F → Str
  | some x => sh.float x
  | none => "None".toList
/-- `f"{signal}"` -/
def signalText : Option Str → Str
  | some s => s
  | none => "None".toList

def tab : Str := ['\t']
/-- `'\t'.join(fields) + '\n'` -/
def line (fields : List Str) : Str := List.intercalate tab fields ++ ['\n']
/-- `'\t'.join(fields) + '\t'` -/
def before (fields : List Str) : Str := List.intercalate tab fields ++ ['\t']

/-- Writing one after the other, until an exception. -/
def cat : List (Option Str) → Option Str
  | [] => some []
  | none :: _ => none
  | some s :: r => (cat r).map (s ++ ·)

/-- 480, 516: the values of the step. -/
def stepValues {V F : Type} (sh : Show V F) (no : Nat) : List (Str × List V) → Option (List Str)
  | [] => some []
  | (_, l) :: r =>
    match l[no]? with
    | none => none
    | some v => (stepValues sh no r).map (sh.value v :: ·)

/-- 488-494, 500-506 -/
def summaryLine {V F : Type} (sh : Show V F) (signal : Option Str) (periods : Str) (a : Fourier F) : Option Str :=
  match a.harmonics with
  | [] => none
  | h :: _ => some (line [signalText signal, periods, sh.float a.dc, sh.float h.frequency, showNat a.harmonics.length, opt sh a.phd, opt sh a.thd])

/-- 519-528, 531-539 -/
def harmonicLine {V F : Type} (sh : Show V F) (signal : Option Str) (a : Fourier F) (h : Harmonic F) : Str :=
  line [signalText signal, sh.float a.periods, showInt h.number, sh.float h.frequency, sh.float h.component, sh.float h.normalized, sh.float h.phase,
    sh.float h.normPhase]

/-- 476-494: one signal with steps. -/
def summaryStepped {V F : Type} (sh : Show V F) (stepset : List (Str × List V)) (count : Nat) (e : Option Str × List (Fourier F)) : Option Str :=
  cat ((List.range count).map (fun (no : Nat) =>
    match stepValues sh no stepset with
    | none => none
    | some vs => cat (e.2.map (fun a =>
        if a.step = (no : Int) then (summaryLine sh e.1 (if sh.less1 a.periods then "all".toList else sh.float a.periods) a).map (before vs ++ ·) else some []))))

/-- 495-506: one signal without steps. -/
def summaryPlain {V F : Type} (sh : Show V F) (e : Option Str × List (Fourier F)) : Option Str :=
  cat (e.2.map (fun a => summaryLine sh e.1 (if sh.minus1 a.periods then "all".toList else sh.float a.periods) a))

/-- 510-528: one analysis with steps. -/
def harmonicsStepped {V F : Type} (sh : Show V F) (stepset : List (Str × List V)) (count : Nat) (signal : Option Str) (a : Fourier F) : Option Str :=
  cat ((List.range count).map (fun (no : Nat) =>
    if a.step = (no : Int) then
      match stepValues sh no stepset with
      | none => none
      | some vs => some (a.harmonics.flatMap (fun h => before vs ++ harmonicLine sh signal a h))
    else some []))

def summaryTitles : List Str := ["Signal", "N-Periods", "DC Component", "Fundamental", "N-Harmonics", "PHD", "THD"].map String.toList
def harmonicTitles : List Str := ["Signal", "N-Periods", "Harmonic", "Frequency", "Fourier", "Normalized", "Phase", "Normalized"].map String.toList

/-- 472-540: the text of the file. -/
def fileText {V F : Type} (sh : Show V F) (stepset : List (Str × List V)) (count : Nat) (fourier : List (Option Str × List (Fourier F))) : Option Str :=
  match cat (fourier.map (fun e => if count > 0 then summaryStepped sh stepset count e else summaryPlain sh e)) with
  | none => none
  | some summary =>
    match cat (fourier.map (fun e => cat (e.2.map (fun a =>
        if count > 0 then harmonicsStepped sh stepset count e.1 a else some (a.harmonics.flatMap (harmonicLine sh e.1 a)))))) with
    | none => none
    | some harmonics =>
      some ((if count > 0 then before (stepset.map Prod.fst) else []) ++ line summaryTitles ++ summary ++
        "\n\nHarmonic Analysis\n".toList ++ before (stepset.map Prod.fst) ++ line harmonicTitles ++ harmonics ++ ['\n'])

/-- 470-471: the file that is written, if any; `base` is os.path.splitext(export_file)[0]. None inside: an exception. -/
def exportFourier {V F : Type} (sh : Show V F) (base : Str) (stepset : List (Str × List V)) (count : Nat) (fourier : List (Option Str × List (Fourier F))) :
    Option (Str × Option Str) :=
  if fourier.isEmpty then none else some (base ++ "_fourier.txt".toList, fileText sh stepset count fourier)

end Model.FourierFile
