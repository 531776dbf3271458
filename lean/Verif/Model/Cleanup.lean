import Verif.Model.Runner
import Verif.Model.CmdLine
/-
Where SimRunner puts the files of a run, and which ones cleanup_files deletes: spicelib/sim/sim_runner.py 418-441, 443-474, 735-778 and
run_task.py 115-157 (the files of a task). A file system maps the paths of the existing files to their contents.
-/
namespace Model.Cleanup

abbrev Str := List Char

/-- A pathlib path: absolute or not, its directories, and its last part (no path of this model is empty). -/
structure Path where
  root : Bool
  dir : List Str
  name : Str
  deriving DecidableEq, Repr

/-- `a / b` (pathlib): an absolute `b` replaces `a`. -/
def join (root : Bool) (folder : List Str) (b : Path) : Path := if b.root then b else ⟨root, folder ++ b.dir, b.name⟩

/-- `Path.with_suffix` -/
def withSuffix (p : Path) (ext : Str) : Path := ⟨p.root, p.dir, (Model.Runner.splitExt p.name).1 ++ ext⟩

/-- `Path.suffix` -/
def suffix (p : Path) : Str := (Model.Runner.splitExt p.name).2

/-- A directory: absolute or not, and its parts. -/
structure Folder where
  root : Bool
  parts : List Str
  deriving DecidableEq, Repr

/-- sim_runner.py 418-422, _on_output_folder -/
def onOutputFolder (out : Option Folder) (file : Path) : Path :=
  match out with
  | some f => ⟨f.root, f.parts, file.name⟩
  | none => file

/-- sim_runner.py 424-441, _to_output_folder with copy=True: the destination; `newName = none` is the empty string. (That the destination is an
existing directory, where shutil.copy puts the file into it, is left out, as is copying a file onto itself, which raises.) -/
def toOutputFolder (out : Option Folder) (file : Path) (newName : Option Path) : Path :=
  match out with
  | some f =>
    match newName with
    | some n => join f.root f.parts n
    | none => ⟨f.root, f.parts, file.name⟩
  | none =>
    match newName with
    | some n => join file.root file.dir n
    | none => file

/-- The netlist argument of run and run_now. -/
inductive Source where
  | editor (circuit : Path)
  | file (path : Path)
  deriving DecidableEq, Repr

/-- The run_filename argument. -/
inductive RunName where
  | default
  | empty
  | given (p : Path)
  deriving DecidableEq, Repr

/-- sim_runner.py 443-474, _prepare_sim: the netlist file of run number `runno`. An empty run_filename with an editor raises or writes to a
directory and is left out: none. -/
def runFile (out : Option Folder) (runno : Nat) (src : Source) (name : RunName) : Option Path :=
  match src with
  | .editor circuit =>
    match name with
    | .default => some (onOutputFolder out ⟨false, [], Model.Runner.runFileName circuit.name runno⟩)
    | .given p => some (onOutputFolder out p)
    | .empty => none
  | .file path =>
    match name with
    | .default => some (toOutputFolder out path (some ⟨false, [], Model.Runner.runFileName path.name runno⟩))
    | .given p => some (toOutputFolder out path (some p))
    | .empty => some (toOutputFolder out path none)

/-- A file system. -/
abbrev FS (C : Type) := Path → Option C

/-- What cleanup_files uses of a task. -/
structure Task where
  netlist : Path
  raw : Option Path
  log : Option Path
  deriving DecidableEq, Repr

/-- How far a task in the completed list has come: its thread has ended with this return code, where the log file existed or not; or (run_now,
when the join timed out) it is still running. -/
inductive Ended where
  | ok
  | failed (logExists : Bool)
  | running
  deriving DecidableEq, Repr

/-- run_task.py 119-120, 138, 143-156: the files of a task. -/
def taskOf (sim : Model.CmdLine.Sim) (netlist : Path) : Ended → Task
  | .ok => ⟨netlist, some (withSuffix netlist sim.rawExtension), some (withSuffix netlist ".log".toList)⟩
  | .failed true => ⟨netlist, none, some (withSuffix (withSuffix netlist ".log".toList) ".fail".toList)⟩
  | .failed false => ⟨netlist, none, some (withSuffix netlist ".log".toList)⟩
  | .running => ⟨netlist, none, none⟩

/-- sim_runner.py 735-744, _del_file_if_exists -/
def delete {C : Type} (p : Path) (fs : FS C) : FS C := fun q => if q = p then none else fs q

def deleteOpt {C : Type} (p : Option Path) (fs : FS C) : FS C :=
  match p with
  | some p => delete p fs
  | none => fs

/-- sim_runner.py 764-778: the body of the loop of cleanup_files. -/
def cleanTask {C : Type} (fs : FS C) (t : Task) : FS C :=
  let fs := delete t.netlist fs                                                   -- 766
  let fs := deleteOpt t.log fs                                                    -- 767
  let fs := delete (withSuffix t.netlist ".exe.log".toList) fs                    -- 768
  let fs := deleteOpt t.raw fs                                                    -- 769
  let fs := if suffix t.netlist = ".net".toList ∨ suffix t.netlist = ".asc".toList then                                 -- 771
      let fs := delete (withSuffix t.netlist ".log.raw".toList) fs                -- 773-774
      let fs := delete (withSuffix t.netlist ".op.raw".toList) fs
      let fs := delete (withSuffix t.netlist ".db".toList) fs
      if suffix t.netlist = ".asc".toList then delete (withSuffix t.netlist ".net".toList) fs else fs                   -- 776-778
    else fs
  fs

/-- sim_runner.py 757-778, cleanup_files (after update_completed). -/
def cleanup {C : Type} (completed : List Task) (fs : FS C) : FS C := completed.foldl cleanTask fs

end Model.Cleanup
