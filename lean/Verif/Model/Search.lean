import Verif.Model.PyStr
/-
Encoding detection and file search: spicelib/utils/detect_encoding.py and spicelib/utils/file_search.py.
-/
namespace Model.Search
open Model.PyStr

abbrev Str := List Char

/-! ### detect_encoding (detect_encoding.py 38-76) -/

/-- The encodings tried, in order (line 51). -/
inductive Enc where
  | utf8 | utf16 | utf16le | windows1252 | cp1252 | cp1250 | shiftJis
  deriving DecidableEq, Repr

def order : List Enc := [.utf8, .utf16, .utf16le, .windows1252, .cp1252, .cp1250, .shiftJis]

inductive DErr where
  | detect     -- EncodingDetectError
  | index      -- IndexError of lines[1]
  deriving DecidableEq, Repr

/-- The loop of detect_encoding (51-76). `decode` gives the text of the file in an encoding, none when it cannot be decoded
(UnicodeDecodeError or UnicodeError); `pattern` is the test made with the regular expression, none when no pattern was given.
A file that does not exist is not modelled. -/
def detectFrom (decode : Enc → Option Str) (pattern : Option (Str → Bool)) : List Enc → Except DErr Enc
  | [] => .error .detect                                                       -- 71-76
  | e :: es =>
    match decode e with
    | none => detectFrom decode pattern es                                     -- 53-60
    | some [] => detectFrom decode pattern es                                  -- 62-64
    | some (c :: cs) =>
      if pattern.any (fun p => !p (c :: cs)) then detectFrom decode pattern es   -- 65-69
      else if e = .utf8 then
        match cs with
        | [] => .error .index                                                  -- 70, a file of one character
        | d :: _ => if d = Char.ofNat 0 then detectFrom decode pattern es else .ok e
      else .ok e

def detect (decode : Enc → Option Str) (pattern : Option (Str → Bool)) : Except DErr Enc := detectFrom decode pattern order

/-! ### find_file_in_directory and search_file_in_containers (file_search.py 30-78)

A file name is the list of its directory parts and its last part (os.path.split, line 36); it is relative and does not contain
'..' or empty parts, and the file system distinguishes letter case. Symbolic links are not modelled. -/

/-- A directory: its files and its sub-directories, in the order the operating system lists them. -/
inductive Dir where
  | mk (files : List Str) (dirs : List (Str × Dir))

def Dir.files : Dir → List Str
  | .mk f _ => f
def Dir.dirs : Dir → List (Str × Dir)
  | .mk _ d => d

mutual
/-- os.walk (line 39), top down, and the first file of it whose name is `name` in lower case (41-43): the path of the file
from the directory. -/
def Dir.find (name : Str) : Dir → Option (List Str)
  | .mk files dirs => match files.find? (fun f => lower name = lower f) with
    | some f => some [f]
    | none => findDirs name dirs
def findDirs (name : Str) : List (Str × Dir) → Option (List Str)
  | [] => none
  | (d, t) :: r => match t.find name with
    | some p => some (d :: p)
    | none => findDirs name r
end

/-- os.path.join(directory, path) (line 38): the directory reached; a path that does not exist has nothing to walk. -/
def Dir.at : Dir → List Str → Option Dir
  | t, [] => some t
  | t, d :: ds => match t.dirs.lookup d with
    | none => none
    | some t' => t'.at ds

/-- find_file_in_directory (30-44) -/
def findInDirectory (t : Dir) (path : List Str) (name : Str) : Option (List Str) :=
  match t.at path with
  | none => none
  | some t' => (t'.find name).map (fun p => path ++ p)

/-- A container: it does not exist, or is a zip file with the names it lists, or a directory (62-76). A directory whose name
ends in .zip is not modelled. -/
inductive Container where
  | absent
  | zip (names : List Str)
  | dir (t : Dir)

/-- The file name as given: the parts put together with '/'. -/
def joined : List Str → Str → Str
  | [], n => n
  | d :: ds, n => d ++ '/' :: joined ds n

/-- What is found in one container: the entry of the zip file which is extracted, or the path in the directory. -/
inductive Hit where
  | entry (name : Str)
  | path (p : List Str)
  deriving DecidableEq

def findIn (path : List Str) (name : Str) : Container → Option Hit
  | .absent => none
  | .zip names => (names.find? (fun f => lower (joined path name) = lower f)).map Hit.entry       -- 64-72
  | .dir t => (findInDirectory t path name).map Hit.path                                    -- 74-77

/-- search_file_in_containers (47-78): which container, and what was found in it. -/
def search (path : List Str) (name : Str) : List Container → Option (Nat × Hit)
  | [] => none
  | c :: cs => match findIn path name c with
    | some h => some (0, h)
    | none => (search path name cs).map (fun r => (r.1 + 1, r.2))

end Model.Search
