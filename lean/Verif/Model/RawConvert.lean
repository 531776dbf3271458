import Verif.Model.RawSteps
/-
The script raw_convert (spicelib/scripts/raw_convert.py 48-140): from the parsed options and arguments to the exit code, the messages and the
file that is written. Not modelled: the parsing of the command line by optparse, the texts of the messages as far as they contain the `repr`
of a list, the clipboard module, and what pandas makes of a table (numbers and quoting); the CSV file is the one written without pandas
(plot_data.py 1017-1024).
-/
namespace Model.RawConvert
open Model.RawSteps (csvText)
open Model.RawFile (Err)

abbrev Str := List Char

/-- 50-66: the options. -/
structure Opts where
  output : Option Str
  clipboard : Bool
  verbose : Bool
  separator : Str

/-- What is printed. -/
inductive Msg where
  | line (s : Str)
  | help
  | reading (found : List Str)
  deriving DecidableEq, Repr

/-- What the script leaves behind. -/
inductive Out where
  | none
  | printed (text : Str)
  | copied (text : Str)
  | csv (file text : Str)
  | excel (file : Str)
  deriving DecidableEq, Repr

/-- How the script ends: `exit(n)` or an exception. -/
inductive End where
  | exit (code : Nat)
  | raised
  deriving DecidableEq, Repr

def voltage (t : Str) : Str := "V(".toList ++ t ++ ")".toList
def current (t : Str) : Str := "I(".toList ++ t ++ ")".toList

/-- 88-101: one trace of the command line: what is added to found_traces, and what is printed. -/
def pick (verbose : Bool) (names : List Str) (t : Str) : List Str × List Msg :=
  if names.contains t then ([t], [])
  else
    let m1 := if verbose then [Msg.line ("Trace ".toList ++ t ++ " not found. Searching for V(".toList ++ t ++ ")".toList)] else []
    if names.contains (voltage t) then ([voltage t], m1)
    else
      let m2 := m1 ++ if verbose then [Msg.line ("Trace V(".toList ++ t ++ ") not found. Searching for I(".toList ++ t ++ ")".toList)] else []
      if names.contains (current t) then ([current t], m2)
      else ([], m2 ++ [Msg.line ("Warning: Trace ".toList ++ t ++ " not found".toList)])

/-- 86-101: the loop. -/
def pickAll (verbose : Bool) (names : List Str) : List Str → List Str × List Msg
  | [] => ([], [])
  | t :: ts => ((pick verbose names t).1 ++ (pickAll verbose names ts).1, (pick verbose names t).2 ++ (pickAll verbose names ts).2)

/-- 104-109: the list of the traces of the file. -/
def available (names : List Str) : List Msg :=
  [.line "Error: No traces found".toList, .line "Available Traces:\n ".toList] ++ names.map (fun n => .line ("\t<".toList ++ n ++ ">".toList))

/-- `s.endswith(t)` -/
def endsWith (t s : Str) : Bool := t.reverse.isPrefixOf s.reverse

/-- 115-137: the output; `data` is what raw_data.export() returns (without arguments: the traces that were found are not passed on).
`pandas`: whether pandas is installed (to_excel needs it). Without a column the table is a StopIteration or IndexError. -/
def write {V : Type} (showV : V → Str) (pandas : Bool) (o : Opts) (data : Except Err (List (Str × List V))) : List Msg × Out × End :=
  match o.output with
  | none =>
    match data with
    | .error _ => ([], .none, .raised)
    | .ok d =>
      match csvText showV o.separator d with
      | .error _ => ([], .none, .raised)
      | .ok text => if o.clipboard then ([], .copied text, .exit 0) else ([], .printed text, .exit 0)
  | some file =>
    if endsWith ".csv".toList file then
      match data with
      | .error _ => ([], .none, .raised)
      | .ok d =>
        match csvText showV o.separator d with
        | .error _ => ([], .none, .raised)
        | .ok text => ([.line "Writing CSV file...Done".toList], .csv file text, .exit 0)
    else if endsWith ".xlsx".toList file then
      match data with
      | .error _ => ([], .none, .raised)
      | .ok _ => if pandas then ([.line "Writing Excel file...Done".toList], .excel file, .exit 0) else ([], .none, .raised)
    else ([.line "Error: Unknown output format. Valid formats are '.csv' and '.xlsx'".toList, .help], .none, .exit 1)

/-- 48-140; `args` are the arguments that are no options; `names` is get_trace_names of the file, or an exception when it cannot be read. -/
def main {V : Type} (showV : V → Str) (pandas : Bool) (o : Opts) (args : List Str) (names : Except Err (List Str))
    (data : Except Err (List (Str × List V))) : List Msg × Out × End :=
  match args with
  | [] => ([.line "Error: Missing arguments".toList, .help], .none, .exit 1)
  | _ :: traces =>
    match names with
    | .error _ => ([], .none, .raised)
    | .ok ns =>
      if traces = [] then write showV pandas o data
      else if (pickAll o.verbose ns traces).1 = [] then ((pickAll o.verbose ns traces).2 ++ available ns, .none, .exit 1)
      else ((pickAll o.verbose ns traces).2 ++ .reading (pickAll o.verbose ns traces).1 :: (write showV pandas o data).1, (write showV pandas o data).2)

end Model.RawConvert
