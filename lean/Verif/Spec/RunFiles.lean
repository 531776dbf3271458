import Verif.Model.Cleanup
/-
Which files belong to a run (specification for C84).
-/
namespace Spec.RunFiles
open Model.Cleanup

/-- The name of a circuit file without its extension, followed by `_` and the run number. -/
def runStem (c : List Char) (n : Nat) : List Char := (Model.Runner.splitExt c).1 ++ '_' :: Nat.toDigits 10 n

/-- A file name of run number `n` of the circuit file named `c`: the default name of its netlist, or a name in which another extension follows
`<circuit>_<n>`; an extension may contain dots but no underscore. -/
inductive FileOf (c : List Char) (n : Nat) : List Char → Prop
  | netlist : FileOf c n (Model.Runner.runFileName c n)
  | beside (e : List Char) : '_' ∉ e → FileOf c n (runStem c n ++ '.' :: e)

/-- The path beside the netlist whose name is the netlist's without its extension, followed by `e`. -/
def beside (netlist : Path) (e : List Char) : Path := { netlist with name := (Model.Runner.splitExt netlist.name).1 ++ e }

/-- The netlist has this extension. -/
def HasExt (netlist : Path) (e : List Char) : Prop := (Model.Runner.splitExt netlist.name).2 = e

/-- The files that are deleted for a run with this netlist that has ended like this. -/
inductive Cleaned (sim : Model.CmdLine.Sim) (netlist : Path) (ended : Ended) : Path → Prop
  | netlist : Cleaned sim netlist ended netlist
  | exeLog : Cleaned sim netlist ended (beside netlist ".exe.log".toList)
  | log : ended = .ok ∨ ended = .failed false → Cleaned sim netlist ended (beside netlist ".log".toList)
  | fail : ended = .failed true → Cleaned sim netlist ended (beside netlist ".fail".toList)
  | raw : ended = .ok → Cleaned sim netlist ended (beside netlist sim.rawExtension)
  | extra (e : List Char) : e ∈ [".log.raw".toList, ".op.raw".toList, ".db".toList] → HasExt netlist ".net".toList ∨ HasExt netlist ".asc".toList →
      Cleaned sim netlist ended (beside netlist e)
  | net : HasExt netlist ".asc".toList → Cleaned sim netlist ended (beside netlist ".net".toList)

end Spec.RunFiles
