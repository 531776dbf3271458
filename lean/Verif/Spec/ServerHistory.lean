import Verif.Model.Server
/-
What a history of requests and answers says, without looking at the state of the server.
-/
namespace Spec.ServerHistory
open Model.Server

/-- The session was opened. -/
def Opened (h : History) (s : Nat) : Prop := (Act.start, Out.session s) ∈ h
/-- The session was closed. -/
def Closed (h : History) (s : Nat) : Prop := (Act.close s, Out.bool true) ∈ h
/-- The session is open. -/
def IsOpen (h : History) (s : Nat) : Prop := Opened h s ∧ ¬ Closed h s

/-- The run numbers handed out to the session, in order. -/
def startedBy (h : History) (s : Nat) : List Nat :=
  h.filterMap (fun e => match e with
    | (.run s' _, .runno r) => if s' = s then some r else none
    | _ => none)

/-- The runs that ended, with their results, in order. -/
def ended (h : History) : List (Nat × Option Nat) :=
  h.filterMap (fun e => match e with
    | (.finish r z, .moved) => some (r, z)
    | _ => none)

/-- The runs whose result was handed out (to whatever session), in order. -/
def fetched (h : History) : List Nat :=
  h.filterMap (fun e => match e with
    | (.get _ r, .data _) => some r
    | _ => none)

end Spec.ServerHistory
