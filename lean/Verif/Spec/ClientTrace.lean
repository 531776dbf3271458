import Verif.Spec.ServerHistory
/-
What a client of the simulation server saw: the calls it made, with their results.
-/
namespace Spec.ClientTrace
open Model.Server

/-- The runs returned by the iterator, in order. -/
def yielded (tr : List (CAct × Option COut)) : List Nat :=
  tr.filterMap (fun e => match e with
    | (_, some (.yields r)) => some r
    | _ => none)

/-- The runs started by the client, in order. -/
def launched (tr : List (CAct × Option COut)) : List Nat :=
  tr.filterMap (fun e => match e with
    | (_, some (.id (some r))) => some r
    | _ => none)

/-- A call of run was answered with -1. -/
def Refused (tr : List (CAct × Option COut)) : Prop := ∃ a : CAct, (a, some (.id none)) ∈ tr

/-- get_runno_data of the run gave a file. -/
def Received (tr : List (CAct × Option COut)) (r : Nat) : Prop := ∃ d : Nat, (CAct.fetch r, some (.file d)) ∈ tr

/-- get_runno_data was called for the run, and accepted the run number. -/
def Asked (tr : List (CAct × Option COut)) (r : Nat) : Prop := ∃ o : COut, (CAct.fetch r, some o) ∈ tr ∧ o ≠ .invalid

/-- The session a request speaks for. -/
def speaksFor : Act → Option Nat
  | .start => none
  | .run s _ => some s
  | .sources s => some s
  | .status s => some s
  | .get s _ => some s
  | .close s => some s
  | .finish _ _ => none

/-- The other things that happen do not speak for the session of this client. -/
def Foreign (sid : Nat) (acts : List CAct) : Prop := ∀ a : Act, CAct.other a ∈ acts → speaksFor a ≠ some sid

/-- What reaches the server: the requests of others, and those made by the calls of the client. -/
def requests1 (y : Sys) : CAct → List Act
  | .other a => [a]
  | .run o => [.run y.sid o]
  | .poll => if y.client.started = [] then [] else [.status y.sid]
  | .fetch r => if y.client.stored.contains (some r) then [.get y.sid r] else []
def requests (y : Sys) : List CAct → List Act
  | [] => []
  | a :: as => requests1 y a ++ requests (cstep y a).1 as

end Spec.ClientTrace
