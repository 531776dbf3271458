import Verif.Model.LogRead
import Verif.Model.CompLine
/-
The text level of reformat_LTSpice_export and LTSpiceExport (spicelib/log/ltsteps.py 99-216): from the characters of an "Export data as
text" file to the characters written and to the columns. The file is taken after decoding and newline translation ('\n' only).
-/
namespace Model.Export
open Model.Regex
open Model.CompLine (lit WordClass words)
open Model.LogRead (XLine OLine ELine reformat readExport splitOn)
open Model.LogData (Dict)

/-- Literal characters, then `r`. -/
def lits : Str → Re → Re
  | [], r => r
  | c :: cs, r => .seq (lit c) (lits cs r)

/-- `[\w=\d\. \-]` (129, 190); `\d` is part of `\w`. -/
def stepClass (w : WordClass) (c : Char) : Bool := w.word c || c = '=' || c = '.' || c = ' ' || c = '-'

/-- `\d*` (ASCII digits only; Python accepts other decimal digits too). -/
def digits : Re := .star (.cls Char.isDigit)

/-- 129: `: (\d*)/\d*\)\n`, the end of the expression. -/
def stepEnd : Re := lits ": ".toList (.seq (.grp .number digits) (.seq (lit '/') (.seq digits (lits ")".toList (lit '\n')))))

/-- 129: `Step Information: ([\w=\d\. \-]+) +\((?:Run|Step): (\d*)/\d*\)\n`. The groups are called params and number here. -/
def stepRe (w : WordClass) : Re :=
  lits "Step Information: ".toList (.seq (.grp .params (plus (.cls (stepClass w)))) (.seq (plus (lit ' ')) (.seq (lit '(')
    (.seq (.alt (lits "Run".toList .nil) (lits "Step".toList .nil)) stepEnd))))

/-- 190: the same without `|Step`. -/
def runRe (w : WordClass) : Re :=
  lits "Step Information: ".toList (.seq (.grp .params (plus (.cls (stepClass w)))) (.seq (plus (lit ' ')) (.seq (lit '(')
    (.seq (lits "Run".toList .nil) stepEnd))))

/-- 131, 192: `line.startswith("Step Information:")`. -/
def isStep (line : Str) : Bool := "Step Information:".toList.isPrefixOf line

/-- `param.split('=')[0]` and `[1]`; `none` is the IndexError. -/
def keyValue (p : Str) : Str × Option Str := ((splitOn '=' p).headD [], (splitOn '=' p)[1]?)

/-- The text of a group of a match (`match.groups()`; both groups always take part). -/
def group (m : St) (g : G) : Str := ((m.get g).map Prod.snd).getD []

/-- 130-136: what a line is. -/
def toX (w : WordClass) (line : Str) : XLine :=
  if isStep line then
    match exec (stepRe w) line with
    | none => .badStep
    | some m => .step (group m .number) ((words [] (group m .params)).map keyValue)
  else .data line

/-- `"\t".join(l)`. -/
def joinTab : List Str → Str
  | [] => []
  | [a] => a
  | a :: b :: l => a ++ '\t' :: joinTab (b :: l)

/-- 146 and 152: the text written; `headers` is the first line of the file. -/
def render (headers : Str) : OLine → Str
  | .header keys => "Run\t".toList ++ joinTab keys ++ '\t' :: headers
  | .row run vals text => run ++ '\t' :: (joinTab vals ++ '\t' :: text)

/-- `fin.readline()` and `for line in fin`: the lines with their terminators. -/
def fileLines : Str → List Str
  | [] => []
  | c :: cs =>
    if c = '\n' then ['\n'] :: fileLines cs
    else match fileLines cs with
      | [] => [[c]]
      | l :: ls => (c :: l) :: ls

/-- 124-152: the text of the tabular file; `none` is the IndexError of 137. -/
def reformatText (w : WordClass) (text : Str) : Option Str :=
  (reformat ((fileLines text).tail.map (toX w))).map (fun out => out.flatMap (render ((fileLines text).headD [])))

/-- 198: `key, value = param.split('=')`; `none` is the ValueError. -/
def pair (p : Str) : Option (Str × Str) :=
  match splitOn '=' p with
  | [k, v] => some (k, v)
  | _ => none

/-- 192-215: what a line is for LTSpiceExport; `some none` is a step line that is ignored, `none` the ValueError of 198
(`key, value = param.split('=')`). -/
def toE (w : WordClass) (line : Str) : Option (Option ELine) :=
  if isStep line then
    match exec (runRe w) line with
    | none => some none
    | some m =>
      match (words [] (group m .params)).mapM pair with
      | none => none
      | some ps => some (some (.step (group m .number) ps))
  else some (some (.data (splitOn '\t' line)))

/-- 176-216: LTSpiceExport(file).dataset; `none` is an exception. (An exception may be raised after earlier lines were read; the
constructor fails in any case.) -/
def readExportText {V : Type} (w : WordClass) (conv raw : Str → V) (text : Str) : Option (Dict (List V)) :=
  match (fileLines text).tail.mapM (toE w) with
  | none => none
  | some ls => readExport conv raw (splitOn '\t' ((fileLines text).headD [])) (ls.filterMap id)

end Model.Export
