/-
The simulation server and its client: spicelib/client_server/sim_server.py (SimServer), srv_sim_runner.py (ServerSimRunner) and
sim_client.py (SimClient).

The server handles one request at a time (SimpleXMLRPCServer), so that requests are atomic here; in between, the thread of
ServerSimRunner moves runs whose simulation ended to completed_tasks (`finish`). Session ids (uuid4) are taken to be distinct: they
are numbered. A result is a zip file, given by its content (a number). Files on disk, the simulations themselves and errors of
the transport are not modelled. A simulation moves to completed_tasks at most once and not before it ended (see Model.Race for
what happens when two threads run update_completed at the same time).
-/
namespace Model.Server

/-- The state: the dictionary of sessions with their run numbers (sim_server.py 70), the last run number (sim_runner.py 318), the
runs that did not end yet, and completed_tasks: run number and zip file, which is None when there was nothing to pack
(srv_sim_runner.py 77, 90-99, 34-55). -/
structure St where
  sessions : List (Nat × List Nat)
  nextSession : Nat
  runno : Nat
  active : List Nat
  completed : List (Nat × Option Nat)
  deriving DecidableEq, Repr

def init : St := ⟨[], 0, 0, [], []⟩

/-- How runner.run of a request ends (srv_sim_runner.py 111-127). -/
inductive Outcome where
  | started
  | timeout       -- None: no free place
  | raises        -- the circuit cannot be opened
  deriving DecidableEq, Repr

/-- Requests (with the session id they carry), and the ending of a run. -/
inductive Act where
  | start
  | run (s : Nat) (o : Outcome)
  | sources (s : Nat)
  | status (s : Nat)
  | get (s r : Nat)
  | close (s : Nat)
  | finish (r : Nat) (zip : Option Nat)
  deriving DecidableEq, Repr

/-- Answers. -/
inductive Out where
  | session (s : Nat)
  | runno (r : Nat)
  | refused                 -- -1
  | fault                   -- an exception, sent to the client as a Fault
  | bool (b : Bool)
  | list (l : List Nat)
  | data (d : Nat)
  | noData                  -- "", b''
  | moved                   -- finish took place
  | none
  deriving DecidableEq, Repr

/-- sessions[s] of the dictionary -/
def lookup (s : Nat) : List (Nat × List Nat) → Option (List Nat)
  | [] => none
  | (k, l) :: r => if k = s then some l else lookup s r

/-- sessions[s].append(r) -/
def push (s r : Nat) : List (Nat × List Nat) → List (Nat × List Nat)
  | [] => []
  | (k, l) :: t => if k = s then (k, l ++ [r]) :: t else (k, l) :: push s r t

/-- erase_files_of_runno (srv_sim_runner.py 145-152): the first entry with this number. -/
def erase (r : Nat) : List (Nat × Option Nat) → List (Nat × Option Nat)
  | [] => []
  | e :: t => if e.1 = r then t else e :: erase r t

/-- The loop of get_files (sim_server.py 153-166): the first entry with this number that has a zip file. -/
def fetch (r : Nat) : List (Nat × Option Nat) → Option Nat
  | [] => none
  | (k, z) :: t => if k = r then (match z with
      | some d => some d
      | none => fetch r t) else fetch r t

def step (st : St) : Act → St × Out
  -- start_session (sim_server.py 116-125)
  | .start => ({ st with sessions := st.sessions ++ [(st.nextSession, [])], nextSession := st.nextSession + 1 }, .session st.nextSession)
  -- run (95-114) and add_simulation
  | .run s o => match lookup s st.sessions with
    | none => (st, .refused)
    | some _ => match o with
      | .started => ({ st with runno := st.runno + 1, active := st.active ++ [st.runno + 1],
                               sessions := push s (st.runno + 1) st.sessions }, .runno (st.runno + 1))
      | .timeout => ({ st with runno := st.runno + 1 }, .refused)
      | .raises => ({ st with runno := st.runno + 1 }, .fault)
  -- add_sources (74-93)
  | .sources s => match lookup s st.sessions with
    | none => (st, .bool false)
    | some _ => (st, .bool true)
  -- status (127-142): KeyError for an unknown session when there is something completed
  | .status s => match lookup s st.sessions with
    | none => (st, if st.completed = [] then .list [] else .fault)
    | some l => (st, .list ((st.completed.map Prod.fst).filter (fun r => l.contains r)))
  -- get_files (144-169)
  | .get s r => match lookup s st.sessions with
    | none => (st, .fault)
    | some l => if l.contains r then
        match fetch r st.completed with
        | some d => ({ st with completed := erase r st.completed }, .data d)
        | none => (st, .noData)
      else (st, .noData)
  -- close_session (171-188)
  | .close s => match lookup s st.sessions with
    | none => (st, .bool false)
    | some l => ({ st with completed := l.foldl (fun c r => erase r c) st.completed,
                           sessions := st.sessions.filter (fun e => e.1 ≠ s) }, .bool true)
  -- ServerSimRunner.run (srv_sim_runner.py 91-106)
  | .finish r z => if st.active.contains r then
      ({ st with active := st.active.erase r, completed := st.completed ++ [(r, z)] }, .moved)
    else (st, .none)

/-- A history: the actions with their answers, in order. -/
abbrev History := List (Act × Out)

def exec (st : St) : List Act → St × History
  | [] => (st, [])
  | a :: as =>
    let r := step st a
    let q := exec r.1 as
    (q.1, (a, r.2) :: q.2)

/-! ### The client (sim_client.py 121-128, 159-240) -/

/-- started_jobs and stored_jobs: their keys in order; a refused run has the number -1 (`none`). -/
structure Client where
  started : List (Option Nat)
  stored : List (Option Nat)
  completedJobs : Nat
  deriving DecidableEq, Repr

/-- `d[k] = v` on the keys of a dictionary -/
def addKey (k : Option Nat) (l : List (Option Nat)) : List (Option Nat) := if l.contains k then l else l ++ [k]

inductive COut where
  | id (r : Option Nat)       -- run returns
  | yields (r : Nat)          -- __next__ returns
  | keyError
  | stop                      -- StopIteration
  | again                     -- another turn of the while loop
  | file (d : Nat)            -- get_runno_data returns a path with this content
  | nothing                   -- get_runno_data returns None
  | invalid                   -- SimClientInvalidRunId
  | fault                     -- an exception of the server
  deriving DecidableEq, Repr

/-- SimClient.run (sim_client.py 159-196) of a circuit that exists, given the answer of the server. -/
def clientRun (c : Client) (o : Out) : Client × COut :=
  match o with
  | .runno r => ({ c with started := addKey (some r) c.started }, .id (some r))
  | .refused => ({ c with started := addKey none c.started }, .id none)
  | _ => (c, .fault)

/-- One turn of the loop of __next__ (220-237), given the answer to status. -/
def clientPoll (c : Client) (o : Out) : Client × COut :=
  if c.started = [] then (c, .stop)
  else match o with
    | .list [] => (c, .again)
    | .list (r :: _) =>
      if c.started.contains (some r) then
        ({ c with started := c.started.erase (some r), stored := addKey (some r) c.stored }, .yields r)
      else (c, .keyError)
    | _ => (c, .fault)

/-- get_runno_data (198-215), given the answer to get_files. -/
def clientFetch (c : Client) (r : Nat) (o : Out) : Client × COut :=
  if c.stored.contains (some r) then
    let c' := { c with stored := c.stored.erase (some r), completedJobs := c.completedJobs + 1 }
    match o with
    | .data d => (c', .file d)
    | .noData => (c', .nothing)
    | _ => (c, .fault)
  else (c, .invalid)

/-- What happens in a system with one client of interest: something on the server that is not a request of this client, or a call
made by the client. -/
inductive CAct where
  | other (a : Act)
  | run (o : Outcome)
  | poll
  | fetch (r : Nat)
  deriving DecidableEq, Repr

structure Sys where
  server : St
  sid : Nat
  client : Client
  deriving DecidableEq, Repr

def cstep (y : Sys) : CAct → Sys × Option COut
  | .other a => ({ y with server := (step y.server a).1 }, none)
  | .run o =>
    let r := step y.server (.run y.sid o)
    let c := clientRun y.client r.2
    ({ y with server := r.1, client := c.1 }, some c.2)
  | .poll =>
    if y.client.started = [] then (y, some .stop)
    else
      let r := step y.server (.status y.sid)
      let c := clientPoll y.client r.2
      ({ y with server := r.1, client := c.1 }, some c.2)
  | .fetch r =>
    if y.client.stored.contains (some r) then
      let q := step y.server (.get y.sid r)
      let c := clientFetch y.client r q.2
      ({ y with server := q.1, client := c.1 }, some c.2)
    else (y, some .invalid)

def cexec (y : Sys) : List CAct → Sys × List (CAct × Option COut)
  | [] => (y, [])
  | a :: as =>
    let r := cstep y a
    let q := cexec r.1 as
    (q.1, (a, r.2) :: q.2)

/-- SimClient(...) (sim_client.py 121-128) on a server in the given state. -/
def connect (st : St) : Sys :=
  ⟨(step st .start).1, st.nextSession, ⟨[], [], 0⟩⟩

end Model.Server
