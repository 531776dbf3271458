import Verif.Model.LibPath
import Verif.Model.Asy
import Verif.Model.SubFind
/-
The symbols and sub-circuits of an LTspice schematic: AscEditor._get_symbol, _get_subcircuit (spicelib/editor/asc_editor.py 456-512), where they
are called while a schematic is read (358-366), AsyReader.get_schematic_file (asy_reader.py 309-315) and AscEditor.__init__ (222-236).

Simplifications: Linux and macOS (the branch for Windows, 468-472, is left out); the cache of symbol files (730-733) is that of C88 and is not used
here; of a schematic only the symbols and instance names matter here (all of its lines are C34); a path is a text, its directory is all before the
last '/'.
-/
namespace Model.AscSub
open Model.PyStr
open Model.LibPath (St World File Found searchIn attr ascSymbolSearch ascLibrary endsWith)

abbrev Str := List Char

/-- `s.replace('//', '/')`: from left to right, without overlaps. -/
def collapse : Str → Str
  | '/' :: '/' :: r => '/' :: collapse r
  | c :: r => c :: collapse r
  | [] => []

/-- `s.replace('/ ', ' ')` -/
def unescape : Str → Str
  | '/' :: ' ' :: r => ' ' :: unescape r
  | c :: r => c :: unescape r
  | [] => []

/-- 457-467: the name of the symbol file. -/
def symbolFile (symbol : Str) : Str :=
  let f := symbol ++ ".asy".toList
  if f.contains '\\' then unescape (collapse (f.map (fun c => if c = '\\' then '/' else c))) else f

/-- os.path.split(filename) as far as the search needs it (file_search.py 36): the directories and the last part. -/
def fileOf (name : Str) : File := ((splitOn '/' name).dropLast, (splitOn '/' name).getLast?.getD [])

/-- os.path.split(path)[0] of a path with a directory; '' otherwise. -/
def dirOf (path : Str) : Str := ((path.reverse.dropWhile (fun c => c ≠ '/')).drop 1).reverse

/-- What the file system and the class variables are while a schematic is opened. -/
structure Env where
  st : St
  w : World
  /-- the path of a file that was found (a file of a zip archive is extracted) -/
  place : Found → Str
  /-- Path.exists() -/
  existing : Str → Bool
  /-- AsyReader(path): none: not a symbol file -/
  symbolAt : Str → Option Model.Asy.St
  /-- the text of a library; none: no encoding was found -/
  libText : Str → Option Str
  /-- the instance names and symbols of a schematic in the order of the file; none: not a schematic -/
  schematic : Str → Option (List (Str × Str))

inductive Err where
  | notFound (what : Str)          -- FileNotFoundError
  | kind (k : Option Str)          -- ValueError "Symbol type ... not supported"
  | noModel                        -- ValueError of get_model
  | assertion                      -- AssertionError of get_schematic_file
  | unreadable
  | lib (e : Model.SubFind.Err)
  | recursion                      -- RecursionError

/-- 474-477: the symbol file that is used, and what it says. -/
def getSymbol (v : Env) (dir symbol : Str) : Except Err (Str × Model.Asy.St) :=
  match ascSymbolSearch v.st v.w dir (fileOf (symbolFile symbol)) with
  | none => .error (.notFound (symbolFile symbol))
  | some f =>
    match v.symbolAt (v.place f) with
    | none => .error .unreadable
    | some s => .ok (v.place f, s)

/-- What a sub-circuit component stands for. -/
inductive Target where
  | nothing
  | schematic (path : Str)
  | definition (items : Option (List Model.NetTree.Item))

/-- asy_reader.py 309-315: the path with the suffix .asc; none: an assertion fails. -/
def besideSymbol (path : Str) : Option Str :=
  if endsWith ".asy".toList path then some (path.dropLast.dropLast.dropLast.dropLast ++ ".asc".toList) else none

/-- asc_editor.py 489-503 -/
def block (v : Env) (dir symPath : Str) : Except Err Target :=
  match besideSymbol symPath with
  | none => .error .assertion
  | some p =>
    if v.existing p then .ok (.schematic p)
    else match searchIn v.w ([], ((splitOn '/' p).getLast?).getD []) ([dir, ".".toList] ++ attr v.st.custom .asc) with
      | some f => .ok (.schematic (v.place f))
      | none => .error (.notFound p)

/-- asc_editor.py 507-512 -/
def library (v : Env) (dir lib : Str) (s : Model.Asy.St) : Except Err Target :=
  match Model.Asy.getModel s with
  | none => .error .noModel
  | some model =>
    match ascLibrary v.st v.w dir (fileOf lib) with
    | none => .error (.notFound lib)
    | some f =>
      match Model.SubFind.findInLib model (v.libText (v.place f)) with
      | .error e => .error (.lib e)
      | .ok r => .ok (.definition r)

/-- asc_editor.py 479-512 -/
def getSubcircuit (v : Env) (dir symPath : Str) (s : Model.Asy.St) : Except Err Target :=
  if s.symbolType = some "CELL".toList ∨ s.symbolType = some "BLOCK".toList then
    match Model.Asy.getLibrary s with
    | none => if s.symbolType = some "BLOCK".toList then block v dir symPath else .ok .nothing
    | some lib => library v dir lib s
  else .error (.kind s.symbolType)

/-- 361-366: what is attached to a component as `_SUBCKT`; none: nothing is attached. -/
def attached (v : Env) (dir ref symbol : Str) : Except Err (Option Target) :=
  match getSymbol v dir symbol with
  | .error e => .error e
  | .ok (p, s) =>
    if ref.head? = some 'X' ∨ Model.Asy.isSubcircuit s = true then
      match getSubcircuit v dir p s with
      | .error e => .error e
      | .ok t => .ok (some t)
    else .ok none

/-- The sub-circuits of a schematic after it was opened. -/
inductive Sub where
  | plain
  | nothing
  | definition (items : Option (List Model.NetTree.Item))
  | schematic (path : Str) (subs : List (Str × Sub))

/-- What remains to be done for one component: `AscEditor(path)` for a schematic. -/
def finish (opener : Str → Except Err (List (Str × Sub))) : Option Target → Except Err Sub
  | none => .ok .plain
  | some .nothing => .ok .nothing
  | some (.definition i) => .ok (.definition i)
  | some (.schematic p) =>
    match opener p with
    | .error e => .error e
    | .ok subs => .ok (.schematic p subs)

/-- The components in their order; the first exception ends the reading. -/
def each (v : Env) (dir : Str) (opener : Str → Except Err (List (Str × Sub))) : List (Str × Str) → Except Err (List (Str × Sub))
  | [] => .ok []
  | (ref, symbol) :: cs =>
    match attached v dir ref symbol with
    | .error e => .error e
    | .ok t =>
      match finish opener t with
      | .error e => .error e
      | .ok s =>
        match each v dir opener cs with
        | .error e => .error e
        | .ok r => .ok ((ref, s) :: r)

/-- AscEditor(path) (222-236 and reset_netlist): at most `depth` schematics can be open inside each other (the recursion limit). -/
def openSch (v : Env) : Nat → Str → Except Err (List (Str × Sub))
  | 0, _ => .error .recursion
  | n + 1, path =>
    if v.existing path then
      match v.schematic path with
      | none => .error .unreadable
      | some cs => each v (dirOf path) (openSch v n) cs
    else .error (.notFound path)

end Model.AscSub
