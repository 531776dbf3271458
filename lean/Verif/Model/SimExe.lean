import Verif.Model.PyStr
/-
Choosing the executable of a simulator: spicelib/sim/simulator.py 92-101 (class variables), 104-145 (create_from), 147-159 (guess_process_name), 177-189
(is_available), 191-216 (get_default_library_paths), 218-276 (expand_and_check_local_dir).

Simplifications: Windows paths (a back slash in the text, 128-132) are turned into forward slashes and normalised like the others; of the environment only
the variable USER is expanded in a default path (261; no default path of the package has another one).
-/
namespace Model.SimExe
open Model.PyStr

abbrev Str := List Char

inductive Os where
  | linux | darwin | windows
  deriving DecidableEq, Repr

/-- The machine. -/
structure World where
  os : Os
  /-- os.path.exists, Path.exists -/
  present : Str → Bool
  isDir : Str → Bool
  /-- shutil.which finds the command -/
  which : Str → Bool
  expanduser : Str → Str
  /-- the environment variable USER -/
  user : Option Str

/-- `Path(s).as_posix()` on Linux and MacOS: empty parts and dots are dropped, two leading slashes are kept. -/
def posixParts (s : Str) : List Str := (splitOn '/' s).filter (fun p => p ≠ [] ∧ p ≠ ".".toList)
def posixRoot (s : Str) : Str :=
  match s with
  | '/' :: '/' :: '/' :: _ => "/".toList
  | '/' :: '/' :: _ => "//".toList
  | '/' :: _ => "/".toList
  | _ => []
def posix (s : Str) : Str :=
  if posixRoot s = [] ∧ posixParts s = [] then ".".toList else posixRoot s ++ List.intercalate "/".toList (posixParts s)

/-- `Path(s).name` -/
def pathName (s : Str) : Str := (posixParts s).getLast?.getD []

/-- `Path(s).stem` for such a name (pathlib): a dot at the beginning or at the end does not count. -/
def stem (n : Str) : Str :=
  let ext := (n.reverse.takeWhile (· ≠ '.')).reverse
  let base := n.take (n.length - ext.length - 1)
  if '.' ∈ n ∧ ext ≠ [] ∧ base ≠ [] then base else n

/-- shlex.split for a text without back slashes: the open quote and the word so far. None: ValueError (no closing quotation). -/
def shlex : Option Char → Option Str → Str → Option (List Str)
  | none, cur, [] => some cur.toList
  | some _, _, [] => none
  | none, cur, c :: s =>
    if c ∈ " \t\r\n".toList then (shlex none none s).map (cur.toList ++ ·)
    else if c = '"' ∨ c = '\'' then shlex (some c) (some (cur.getD [])) s
    else shlex none (some (cur.getD [] ++ [c])) s
  | some q, cur, c :: s =>
    if c = q then shlex none cur s else shlex (some q) (some (cur.getD [] ++ [c])) s

/-- The class variables of a simulator. -/
structure Rec where
  exe : List Str
  process : Str
  deriving DecidableEq, Repr

inductive Err where
  | notFound | value
  deriving DecidableEq, Repr

/-- 147-159 -/
def guess (w : World) (exe : Str) : Str :=
  if exe = [] then []
  else if w.os = .darwin then (if contains "wine".toList exe then "wine-preloader".toList else stem (pathName exe))
  else pathName exe

/-- 117-138: the sections of the command, and the path whose existence is asked. -/
def sections (w : World) (isPath : Bool) (text : Str) : Except Err (List Str) :=
  if isPath || w.present text then .ok [posix text]
  else if '\\' ∈ text then .ok [posix (text.map (fun c => if c = '\\' then '/' else c))]
  else match shlex none none text with
    | none => .error .value
    | some [] => .ok []
    | some (p :: ps) => .ok (posix p :: ps)

/-- create_from (104-145) on the class `cls`: the classes of simulators are a table. -/
def createFrom {C : Type} [DecidableEq C] (w : World) (table : C → Rec) (cls : C) (isPath : Bool) (text : Str) (name : Option Str) :
    Except Err C × (C → Rec) :=
  match sections w isPath text with
  | .error e => (.error e, table)
  | .ok [] => (.error .notFound, table)
  | .ok (p :: ps) =>
    if w.present p || w.which p then
      (.ok cls, fun c => if c = cls then ⟨p :: ps, name.getD (guess w p)⟩ else table c)
    else (.error .notFound, table)

/-- 177-189 -/
def isAvailable (w : World) (r : Rec) : Bool :=
  match r.exe with
  | [] => false
  | p :: _ => w.present p || w.which p

/-- `s.split(sep)[0]` -/
def before (sep : Str) : Str → Str
  | [] => []
  | c :: s => if sep.isPrefixOf (c :: s) then [] else c :: before sep s

/-- 244-250 -/
def driveC (w : World) (exe : Option Str) : Option Str :=
  if w.os = .linux ∨ w.os = .darwin then
    match exe with
    | some e => if contains "/drive_c/".toList e then some (before "/drive_c/".toList e ++ "/drive_c/".toList) else none
    | none => none
  else none

/-- 254-261: the home directory, in the manner of Windows. -/
def homeC (w : World) (path : Str) : Str :=
  if "~".toList.isPrefixOf path then "C:/users/".toList ++ (w.user.getD "${USER}".toList ++ path.drop 1) else path

/-- 262-264: the drive C. -/
def below (drive path : Str) : Str :=
  if "C:/".toList.isPrefixOf path || "c:/".toList.isPrefixOf path then drive ++ path.drop 3 else path

/-- 252-264: under wine. -/
def wine (w : World) (drive path : Str) : Str := below drive (homeC w path)

/-- expand_and_check_local_dir (218-276) -/
def expandDir (w : World) (path : Str) (exe : Option Str) : Option Str :=
  let path := match driveC w exe with | some d => wine w d path | none => path
  let path := if "~".toList.isPrefixOf path then w.expanduser path else path
  if w.present path && w.isDir path then some path else none

/-- get_default_library_paths (191-216) -/
def libraryPaths (w : World) (r : Rec) (defaults : List Str) : List Str :=
  let exe := r.exe.getLast?.bind (fun e => if w.present e then some e else none)
  defaults.filterMap (fun p => expandDir w p exe)

end Model.SimExe
