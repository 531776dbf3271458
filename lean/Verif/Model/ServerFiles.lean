import Verif.Model.Runner
import Verif.Model.CmdLine
import Verif.Model.Cleanup
/-
The files in the folder of the simulation server: spicelib/client_server/sim_server.py (add_sources, run, get_files, close_session),
srv_sim_runner.py (zip_files, the loop of ServerSimRunner.run, _erase_files_and_info, erase_files_of_runno), sim_client.py (add_sources,
run: what is put into the archive that is sent), sim_runner.py 443-474 (_run_file_name, _prepare_sim) and run_task.py 115-190 (the files of a task).

Simplifications: the folder is flat, a file is its name and its content; members of archives are named without folders (so the client
names them; the archive of results names them with the folder of the server in front, here without); requests are atomic, as in
Model.Server, and so is the end of a run together with the packing of its results and the move to completed_tasks; deleting a file
does not fail. The number of simulations at a time is not modelled: a request to run either finds a place (`free`) or not.
-/
namespace Model.ServerFiles

abbrev Str := List Char

/-- The folder: the files that exist and their contents. -/
abbrev Folder (C : Type) := Str → Option C

def put {C : Type} (f : Str) (c : Option C) (fs : Folder C) : Folder C := fun g => if g = f then c else fs g

/-- zipfile's extractall (sim_server.py 91): the members in order, a later one of the same name replaces an earlier one. -/
def extract {C : Type} (ms : List (Str × C)) (fs : Folder C) : Folder C := ms.foldl (fun fs m => put m.1 (some m.2) fs) fs

/-- `Path.with_suffix` on the last component -/
def withSuffix (f ext : Str) : Str := (Model.Runner.splitExt f).1 ++ ext

/-- A run whose simulation did not end: its number, the name of the circuit it was asked for, and the name of its copy. -/
structure Active where
  no : Nat
  source : Str
  circuit : Str
  deriving DecidableEq, Repr

/-- An entry of completed_tasks (srv_sim_runner.py 94-103). -/
structure Done where
  no : Nat
  circuit : Str
  raw : Option Str
  log : Str
  zip : Option Str
  deriving DecidableEq, Repr

structure St (C : Type) where
  sessions : List (Nat × List Nat)
  nextSession : Nat
  runno : Nat
  active : List Active
  completed : List Done
  fs : Folder C

def start {C : Type} (fs : Folder C) : St C := ⟨[], 0, 0, [], [], fs⟩

inductive Act (C : Type) where
  | start
  | upload (s : Nat) (members : List (Str × C))
  | run (s : Nat) (circuit : Str) (members : List (Str × C)) (free : Bool)
  /-- the simulator of run `r` creates, changes or deletes a file -/
  | write (r : Nat) (f : Str) (c : Option C)
  /-- the simulation of run `r` ends, with return code 0 or not -/
  | finish (r : Nat) (ok : Bool)
  | get (s r : Nat)
  | close (s : Nat)
  deriving DecidableEq

inductive Out (C : Type) where
  | session (s : Nat)
  | bool (b : Bool)
  | runno (r : Nat)
  | refused                     -- -1
  | fault                       -- an exception
  | file (name : Str) (c : C)
  | noFile                      -- "", b''
  | moved                       -- finish took place
  | none
  deriving DecidableEq

/-- sessions[s] -/
def lookup (s : Nat) : List (Nat × List Nat) → Option (List Nat)
  | [] => none
  | (k, l) :: r => if k = s then some l else lookup s r

/-- sessions[s].append(r) -/
def push (s r : Nat) : List (Nat × List Nat) → List (Nat × List Nat)
  | [] => []
  | (k, l) :: t => if k = s then (k, l ++ [r]) :: t else (k, l) :: push s r t

/-- A file of the archive, if it exists (srv_sim_runner.py 52-55). -/
def member {C : Type} (fs : Folder C) (f : Str) : List (Str × C) :=
  match fs f with
  | some c => [(f, c)]
  | none => []

/-- srv_sim_runner.py 33-56, zip_files: the archive that is written. -/
def zipFiles {C : Type} (pack : List (Str × C) → C) (raw : Option Str) (log : Str) (fs : Folder C) : Folder C × Option Str :=
  let rawMember := match raw with
    | some r => member fs r
    | none => []
  match raw.filter (fun r => (fs r).isSome) with
  | some r => (put (withSuffix r ".zip".toList) (some (pack (rawMember ++ member fs log))) fs, some (withSuffix r ".zip".toList))   -- 41-42, 51-56
  | none =>
    if (fs log).isSome then                                                                                                      -- 44-45
      (put (withSuffix log ".zip".toList) (some (pack (rawMember ++ member fs log))) fs, some (withSuffix log ".zip".toList))
    else (fs, none)                                                                                                              -- 47-49

/-- run_task.py 138-156 and the callback zip_files: the end of a run. -/
def endRun {C : Type} (sim : Model.CmdLine.Sim) (pack : List (Str × C) → C) (a : Active) (ok : Bool) (fs : Folder C) : Folder C × Done :=
  let log := withSuffix a.circuit ".log".toList                                          -- 138
  if ok then
    let raw := withSuffix a.circuit sim.rawExtension                                      -- 144
    let z := zipFiles pack (some raw) log fs
    (z.1, ⟨a.no, a.circuit, some raw, log, z.2⟩)
  else match fs log with
    | some c =>                                                                           -- 155-156
      let fail := withSuffix log ".fail".toList
      let z := zipFiles pack none fail (put fail (some c) (put log none fs))
      (z.1, ⟨a.no, a.circuit, none, fail, z.2⟩)
    | none =>
      let z := zipFiles pack none log fs
      (z.1, ⟨a.no, a.circuit, none, log, z.2⟩)

/-- The files an entry of completed_tasks names (srv_sim_runner.py 134). -/
def Done.files (d : Done) : List Str := [d.circuit, d.log] ++ d.raw.toList ++ d.zip.toList

/-- srv_sim_runner.py 132-143 without the deletion of the entry -/
def eraseFiles {C : Type} (d : Done) (fs : Folder C) : Folder C := d.files.foldl (fun fs f => put f none fs) fs

/-- srv_sim_runner.py 145-152, erase_files_of_runno: the first entry with this number, with its files. -/
def erase {C : Type} (r : Nat) : List Done → Folder C → List Done × Folder C
  | [], fs => ([], fs)
  | d :: t, fs => if d.no = r then (t, eraseFiles d fs) else (d :: (erase r t fs).1, (erase r t fs).2)

/-- sim_server.py 153-159: the entry whose archive get_files opens. -/
def fetch (r : Nat) : List Done → Option Str
  | [] => none
  | d :: t => if d.no = r then (match d.zip with
      | some z => some z
      | none => fetch r t) else fetch r t

/-- sim_server.py 182-187: the loop of close_session. -/
def eraseAll {C : Type} : List Nat → List Done × Folder C → List Done × Folder C
  | [], p => p
  | r :: rs, p => eraseAll rs (erase r p.1 p.2)

/-- sim_server.py 95-114 in an open session, srv_sim_runner.py 111-130, sim_runner.py 451-474: extraction, the copy of the circuit, and
(when a place is free) the start. -/
def runIn {C : Type} (st : St C) (s : Nat) (circuit : Str) (members : List (Str × C)) (free : Bool) : St C × Out C :=
  match extract members st.fs circuit with
  | none => ({ st with runno := st.runno + 1, fs := extract members st.fs }, .fault)      -- the copy raises FileNotFoundError
  | some c =>
    let copy := Model.Runner.runFileName circuit (st.runno + 1)
    if free then
      ({ st with runno := st.runno + 1, fs := put copy (some c) (extract members st.fs),
                 active := st.active ++ [⟨st.runno + 1, circuit, copy⟩],
                 sessions := push s (st.runno + 1) st.sessions }, .runno (st.runno + 1))
    else ({ st with runno := st.runno + 1, fs := put copy (some c) (extract members st.fs) }, .refused)

/-- get_files in an open session with these runs (sim_server.py 152-169) -/
def getIn {C : Type} (st : St C) (l : List Nat) (r : Nat) : St C × Out C :=
  if l.contains r then
    match fetch r st.completed with
    | none => (st, .noFile)
    | some z => match st.fs z with
      | none => (st, .fault)                                                              -- 159: FileNotFoundError
      | some c => ({ st with completed := (erase r st.completed st.fs).1, fs := (erase r st.completed st.fs).2 }, .file z c)
  else (st, .noFile)

/-- ServerSimRunner.run (srv_sim_runner.py 91-106) -/
def finishRun {C : Type} (sim : Model.CmdLine.Sim) (pack : List (Str × C) → C) (st : St C) (r : Nat) (ok : Bool) : St C × Out C :=
  match st.active.find? (fun a => a.no = r) with
  | none => (st, .none)
  | some a => ({ st with active := st.active.erase a, fs := (endRun sim pack a ok st.fs).1,
                         completed := st.completed ++ [(endRun sim pack a ok st.fs).2] }, .moved)

/-- A file the simulator of this run may touch: its name is that of the circuit's copy with another extension (of letters other than the
underscore), or the copy itself. -/
def ownFile (a : Active) (f : Str) : Bool :=
  f = a.circuit || (((Model.Runner.splitExt a.source).1 ++ '_' :: Nat.toDigits 10 a.no ++ ['.']).isPrefixOf f &&
    !(f.drop ((Model.Runner.splitExt a.source).1 ++ '_' :: Nat.toDigits 10 a.no ++ ['.']).length).contains '_')

def step {C : Type} (sim : Model.CmdLine.Sim) (pack : List (Str × C) → C) (st : St C) : Act C → St C × Out C
  -- start_session (sim_server.py 116-125)
  | .start => ({ st with sessions := st.sessions ++ [(st.nextSession, [])], nextSession := st.nextSession + 1 }, .session st.nextSession)
  -- add_sources (74-93)
  | .upload s ms => match lookup s st.sessions with
    | none => (st, .bool false)
    | some _ => ({ st with fs := extract ms st.fs }, .bool true)
  -- run (95-114)
  | .run s c ms free => match lookup s st.sessions with
    | none => (st, .refused)
    | some _ => runIn st s c ms free
  | .write r f c => match st.active.find? (fun a => a.no = r) with
    | none => (st, .none)
    | some a => if ownFile a f then ({ st with fs := put f c st.fs }, .none) else (st, .none)
  | .finish r ok => finishRun sim pack st r ok
  -- get_files (144-169)
  | .get s r => match lookup s st.sessions with
    | none => (st, .fault)
    | some l => getIn st l r
  -- close_session (171-188)
  | .close s => match lookup s st.sessions with
    | none => (st, .bool false)
    | some l => ({ st with completed := (eraseAll l (st.completed, st.fs)).1, fs := (eraseAll l (st.completed, st.fs)).2,
                           sessions := st.sessions.filter (fun e => e.1 ≠ s) }, .bool true)

abbrev History (C : Type) := List (Act C × Out C)

def exec {C : Type} (sim : Model.CmdLine.Sim) (pack : List (Str × C) → C) (st : St C) : List (Act C) → St C × History C
  | [] => (st, [])
  | a :: as =>
    let r := step sim pack st a
    let q := exec sim pack r.1 as
    (q.1, (a, r.2) :: q.2)

/-- srv_sim_runner.py 106-109: what happens to the files after stop_server: the runs that did not end yet end (with these return codes), and
cleanup_files of the runner deletes files of the tasks in the runner's list, which are these ones; the entries of completed_tasks are
not in that list any more (93: pop). -/
def endAll {C : Type} (sim : Model.CmdLine.Sim) (pack : List (Str × C) → C) (ok : Nat → Bool) : List Active → Folder C → Folder C × List Done
  | [], fs => (fs, [])
  | a :: as, fs =>
    let r := endRun sim pack a (ok a.no) fs
    let q := endAll sim pack ok as r.1
    (q.1, r.2 :: q.2)

def asTask (d : Done) : Model.Cleanup.Task := ⟨⟨false, [], d.circuit⟩, d.raw.map (fun r => ⟨false, [], r⟩), some ⟨false, [], d.log⟩⟩

def shutdown {C : Type} (sim : Model.CmdLine.Sim) (pack : List (Str × C) → C) (st : St C) (ok : Nat → Bool) : Folder C :=
  let r := endAll sim pack ok st.active st.fs
  fun f => Model.Cleanup.cleanup (r.2.map asTask) (fun p => r.1 p.name) ⟨false, [], f⟩

/-- SimClient.add_sources and the dependencies of run (sim_client.py 139-143, 176-181): of the given files, those that exist, under the last
component of their names; the circuit comes first (175). `disk` gives the files of the client by path. -/
def gather {C : Type} (disk : Str → Option C) (base : Str → Str) (sources : List Str) : List (Str × C) :=
  sources.filterMap (fun p => (disk p).map (fun c => (base p, c)))

end Model.ServerFiles
