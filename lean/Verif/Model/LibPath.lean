import Verif.Model.Search
import Verif.Model.NetTree
/-
Library paths of the editors: spicelib/editor/base_editor.py 48-58 (the class variables), 130 (prepare_for_simulator), 133-165 (set_custom_library_paths),
spice_editor.py 84-132 (reset_netlist: which program wrote the netlist), spice_subcircuit.py 981-1000 (find_library), asc_editor.py 210-214,
717-746 (_lib_file_find, _asy_file_find), qsch_editor.py 570, 1068-1073 (_qsch_file_find).

Both lists of paths and the cache of symbols are class variables, so they are a state of the whole process. Simplification: a path is looked up in the file
system as it is written (no normalisation), and the file name looked for is its directory parts and its last part (Model/Search).
-/
namespace Model.LibPath
open Model.PyStr

abbrev Str := List Char

/-- The file system at some moment. -/
structure World where
  /-- `os.path.exists(path) and os.path.isdir(path)` -/
  isDir : Str → Bool
  /-- what a search container of this name is -/
  container : Str → Model.Search.Container
  /-- os.path.expanduser -/
  expanduser : Str → Str

/-- The classes of editors. -/
inductive Cls where
  | base | spiceFile | spice | schematic | asc | qsch
  deriving DecidableEq, Repr

/-- The method resolution order as far as these class variables go: spice_file.py 17, spice_editor.py 57, base_schematic.py 278, asc_editor.py 208,
qsch_editor.py 562. -/
def mro : Cls → List Cls
  | .base => [.base]
  | .spiceFile => [.spiceFile, .base]
  | .spice => [.spice, .spiceFile, .base]
  | .schematic => [.schematic, .base]
  | .asc => [.asc, .schematic, .base]
  | .qsch => [.qsch, .schematic, .base]

/-- A file name: directory parts and last part. -/
abbrev File := List Str × Str

/-- What a search finds: the container and the place in it. -/
abbrev Found := Str × Model.Search.Hit

/-- The class variables: the value a class has of its own. -/
structure St where
  custom : Cls → Option (List Str)
  sim : Cls → Option (List Str)
  cache : List (File × Found)

/-- Reading a class variable: the first class of the order that has one. -/
def attr (v : Cls → Option (List Str)) (c : Cls) : List Str := ((mro c).findSome? v).getD []

/-- At import: base_editor.py 48, 53, asc_editor.py 210, 213, qsch_editor.py 570. -/
def initial (lt qs : List Str) : St where
  custom := fun c => if c = .base then some [] else none
  sim := fun c => match c with | .base => some [] | .asc => some lt | .qsch => some qs | _ => none
  cache := []

/-- `cls.x = v` -/
def assign (v : Cls → Option (List Str)) (c : Cls) (l : List Str) : Cls → Option (List Str) := fun d => if d = c then some l else v d

/-- base_editor.py 136-143: the path that is appended, if any. -/
def checked (w : World) (path : Str) : Option Str :=
  let path := if "~".toList.isPrefixOf path then w.expanduser path else path
  if w.isDir path then some path else none

/-- base_editor.py 157-165: `paths` are the strings of the arguments, those of lists in their place. -/
def setCustom (s : St) (w : World) (c : Cls) (paths : List Str) : St := { s with custom := assign s.custom c (paths.filterMap (checked w)) }

/-- base_editor.py 130; `paths` is what the simulator's get_default_library_paths returns. -/
def prepare (s : St) (c : Cls) (paths : List Str) : St := { s with sim := assign s.sim c paths }

inductive Tool where
  | ltspice | qspice | xyce | ngspice
  deriving DecidableEq, Repr

/-- `s.endswith(t)` -/
def endsWith (t s : Str) : Bool := t.reverse.isPrefixOf s.reverse

/-- spice_editor.py 106-128: what one line says. -/
def writtenBy (line : Str) : Option Tool :=
  let up := upper (strip line)
  if "*".toList.isPrefixOf line then
    if endsWith ".ASC".toList up then some .ltspice
    else if endsWith ".QSCH".toList up then some .qspice
    else if contains "XYCE".toList up then some .xyce
    else if contains "NGSPICE".toList up then some .ngspice
    else none
  else none

/-- spice_editor.py 105-128: the loop over the first elements. -/
def detectIn : List Model.NetTree.Item → Option Tool
  | [] => none
  | .text s :: is => (match writtenBy s with | some t => some t | none => detectIn is)
  | _ :: is => detectIn is

def detect (items : List Model.NetTree.Item) : Option Tool := detectIn (items.take 5)

/-- spice_editor.py 101-130, after the netlist has been loaded by an editor of this class; `defaults` are the library paths of the simulators. -/
def opened (s : St) (w : World) (c : Cls) (defaults : Tool → List Str) (items : List Model.NetTree.Item) : St :=
  if (attr s.custom c).isEmpty then
    match detect items with
    | some t => if (defaults t).isEmpty then s else setCustom s w c (defaults t)
    | none => s
  else s

/-- search_file_in_containers: the name of the container, and what it has. -/
def searchIn (w : World) (f : File) : List Str → Option Found
  | [] => none
  | c :: cs => match Model.Search.findIn f.1 f.2 (w.container c) with
    | some h => some (c, h)
    | none => searchIn w f cs

/-- `os.path.join(x, "sub")` -/
def joinDir (x sub : Str) : Str := if x = [] then sub else if endsWith "/".toList x then x ++ sub else x ++ '/' :: sub

/-- spice_subcircuit.py 992-1000: for a netlist of an editor of this class in the directory `dir`; none: a circuit without editor. -/
def findLibrary (s : St) (w : World) (owner : Option (Cls × Option Str)) (f : File) : Option Found :=
  match owner with
  | some (c, dir) => searchIn w f (dir.toList ++ ["."].map String.toList ++ attr s.sim c ++ attr s.custom c)
  | none => searchIn w f [".".toList]

/-- asc_editor.py 717-728 -/
def ascLibrary (s : St) (w : World) (dir : Str) (f : File) : Option Found :=
  searchIn w f ([dir, ".".toList] ++ (attr s.sim .asc).map (joinDir · "sub".toList) ++ attr s.custom .asc ++
    [w.expanduser "~/AppData/Local/Programs/ADI/LTspice/lib.zip".toList])

/-- asc_editor.py 730-746, the search. -/
def ascSymbolSearch (s : St) (w : World) (dir : Str) (f : File) : Option Found :=
  searchIn w f ([dir, ".".toList] ++ (attr s.sim .asc).map (joinDir · "sym".toList) ++ attr s.custom .asc)

/-- asc_editor.py 730-746 -/
def ascSymbol (s : St) (w : World) (dir : Str) (f : File) : Option Found × St :=
  match s.cache.lookup f with
  | some p => (some p, s)
  | none => match ascSymbolSearch s w dir f with
    | some p => (some p, { s with cache := s.cache ++ [(f, p)] })
    | none => (none, s)

/-- qsch_editor.py 1068-1073 -/
def qschFile (s : St) (w : World) (work : Option Str) (f : File) : Option Found :=
  let cs := ".".toList :: (attr s.custom .qsch ++ attr s.sim .qsch)
  match work with
  | some d => searchIn w f (if d = ".".toList then cs else d :: cs)
  | none => searchIn w f cs

/-- What can happen in a process. -/
inductive Event where
  | setCustom (w : World) (c : Cls) (paths : List Str)
  | prepare (c : Cls) (paths : List Str)
  | opened (w : World) (c : Cls) (defaults : Tool → List Str) (items : List Model.NetTree.Item)
  | symbol (w : World) (dir : Str) (f : File)

def step (s : St) : Event → St
  | .setCustom w c ps => setCustom s w c ps
  | .prepare c ps => prepare s c ps
  | .opened w c d is => opened s w c d is
  | .symbol w dir f => (ascSymbol s w dir f).2

def run (s : St) (es : List Event) : St := es.foldl step s

end Model.LibPath
