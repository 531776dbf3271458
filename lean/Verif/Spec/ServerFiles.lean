import Verif.Model.ServerFiles
import Verif.Spec.RunFiles
/-
What clients may expect of the folder of the simulation server (specification for C101).
-/
namespace Spec.ServerFiles
open Model.ServerFiles Spec.RunFiles
open Model.Runner (runFileName)

/-- A request of session `s` to simulate the circuit `c` was answered with the run number `n`. -/
def Started {C : Type} (h : History C) (s n : Nat) (c : Str) : Prop := ∃ ms free, (Act.run s c ms free, Out.runno n) ∈ h

/-- The simulation of run `n` ended. -/
def Ended {C : Type} (h : History C) (n : Nat) : Prop := ∃ ok, (Act.finish n ok, Out.moved) ∈ h

/-- The request sends a file of this name. -/
def Sends {C : Type} : Act C → Str → Prop
  | .upload _ ms, f => f ∈ ms.map Prod.fst
  | .run _ _ ms _, f => f ∈ ms.map Prod.fst
  | _, _ => False

/-- The last member of an archive with this name has this content. -/
def LastMember {C : Type} (ms : List (Str × C)) (f : Str) (c : C) : Prop :=
  ∃ a b, ms = a ++ (f, c) :: b ∧ f ∉ b.map Prod.fst

/-- No circuit of the requests has a name that ends with a dot. -/
def NoDot {C : Type} (as : List (Act C)) : Prop := ∀ s c ms free, Act.run s c ms free ∈ as → ∀ b, c ≠ b ++ ['.']

/-- The files that an action may change, after history `h`. -/
inductive May {C : Type} (h : History C) : Act C → Str → Prop
  /-- what was sent -/
  | sent (a : Act C) (f : Str) : Sends a f → May h a f
  /-- the copy of the circuit, with a number that no run has -/
  | copy (s : Nat) (c : Str) (ms : List (Str × C)) (free : Bool) (n : Nat) :
      (∀ s' c', ¬ Started h s' n c') → May h (.run s c ms free) (runFileName c n)
  /-- files of the run that is simulated -/
  | simulator (s n : Nat) (c f : Str) (x : Option C) : Started h s n c → FileOf c n f → May h (.write n f x) f
  | finish (s n : Nat) (ok : Bool) (c f : Str) : Started h s n c → FileOf c n f → May h (.finish n ok) f
  /-- files of a run of the session -/
  | get (s n : Nat) (c f : Str) : Started h s n c → FileOf c n f → May h (.get s n) f
  | close (s n : Nat) (c f : Str) : Started h s n c → FileOf c n f → May h (.close s) f

/-- The session on whose behalf an action is. -/
def Speaks {C : Type} : Act C → Nat → Prop
  | .upload s _, t => s = t
  | .run s _ _ _, t => s = t
  | .get s _, t => s = t
  | .close s, t => s = t
  | _, _ => False

/-- The action is something the simulation of run `n` does. -/
def Simulates {C : Type} : Act C → Nat → Prop
  | .write r _ _, n => r = n
  | .finish r _, n => r = n
  | _, _ => False

/-- The file of the given name as a list: empty if there is none. -/
def existing {C : Type} (fs : Folder C) (f : Str) : List (Str × C) := (fs f).toList.map (fun c => (f, c))

/-- What the archive of run `n` of circuit `c` is made of when its simulation ends and the folder is `fs`: the waveforms and the log if the
simulation succeeded; otherwise the log, now called `.fail`. -/
def results {C : Type} (sim : Model.CmdLine.Sim) (fs : Folder C) (c : Str) (n : Nat) (ok : Bool) : List (Str × C) :=
  if ok then existing fs (runStem c n ++ sim.rawExtension) ++ existing fs (runStem c n ++ ".log".toList)
  else (fs (runStem c n ++ ".log".toList)).toList.map (fun x => (runStem c n ++ ".fail".toList, x))

/-- The name of the archive of a run. -/
def archive (c : Str) (n : Nat) : Str := runStem c n ++ ".zip".toList

/-- The results of run `n` of session `s` were fetched, or discarded when the session was closed after the end of the run. -/
def Dropped {C : Type} (h : History C) (s n : Nat) : Prop :=
  (∃ z x, (Act.get s n, Out.file z x) ∈ h) ∨ ∃ h1 h2, h = h1 ++ (Act.close s, Out.bool true) :: h2 ∧ Ended h1 n

/-- Why a file may be in the folder. -/
inductive Reason {C : Type} (sim : Model.CmdLine.Sim) (fs0 : Folder C) (h : History C) (f : Str) : Prop
  | first : fs0 f ≠ none → Reason sim fs0 h f
  | sent (a : Act C) (o : Out C) : (a, o) ∈ h → Sends a f → Reason sim fs0 h f
  /-- a file of a run that is being simulated, or whose results were neither fetched nor discarded -/
  | run (s n : Nat) (c : Str) : Started h s n c → ¬ Dropped h s n → FileOf c n f → Reason sim fs0 h f
  /-- the copy of a circuit that could not be started -/
  | refused (s : Nat) (c : Str) (ms : List (Str × C)) (free : Bool) (n : Nat) : (Act.run s c ms free, Out.refused) ∈ h → f = runFileName c n → Reason sim fs0 h f
  /-- a file the simulator wrote that is neither the circuit, nor its log, nor (unless the simulation failed) its waveforms -/
  | extra (s n : Nat) (c : Str) (x : Option C) (o : Out C) : Started h s n c → (Act.write n f x, o) ∈ h → FileOf c n f → f ≠ runFileName c n →
      f ≠ runStem c n ++ ".log".toList → (f = runStem c n ++ sim.rawExtension → (Act.finish n false, Out.moved) ∈ h) → Reason sim fs0 h f

end Spec.ServerFiles
