import Verif.Model.Fed
/-!
# Histories of one federate

The events a federate sees: commands taken from its queue, calls made by the user through the core's API,
arriving data and changed settings.  A federate's history is any list of them, in any order.
-/
namespace Verif

/-- One event of a federate's history. -/
inductive FedOp
  /-- a command taken from the queue (src/helics/core/FederateState.cpp:1376-1437), from the network, a timer or
  the core -/
  | msg (cmd : Msg)
  /-- the user asks for a time; `nv`, `nm` are the times of the next queued value and message
  (src/helics/core/CommonCore.cpp:937-1059) -/
  | timeRequest (t : Time) (it : IterReq) (nv nm : Time)
  /-- the user asks to enter executing mode (src/helics/core/CommonCore.cpp:719-763) -/
  | execRequest (it : IterReq)
  /-- a value arrives at an interruptible input -/
  | value (cmd : Msg)
  /-- a message arrives at an endpoint -/
  | message (cmd : Msg)
  /-- a timing setting is changed (src/helics/core/CommonCore.cpp:1111-1125) -/
  | setTime (p : TC.TimeProp) (v : Time)
  | setFlag (f : TC.OptFlag) (v : Bool)
  | setMaxIterations (v : Int)
  deriving DecidableEq, Repr

namespace Fed

/-- The limit applied by the core to `ITERATE_IF_NEEDED` time requests
(src/helics/core/CommonCore.cpp:1022-1027); `limit` is the core's `maxIterationCount`. -/
def limitIter (f : Fed) (limit : Int) (it : IterReq) : IterReq :=
  if it = .iterateIfNeeded ∧ f.tc.iteration ≥ limit then .noIterations else it

/-- One event.  A time request is honoured only in executing mode and only when no other request is under
way (src/helics/core/CommonCore.cpp:955-990,1006-1020 and the `try_lock` in
src/helics/core/FederateState.cpp:703); an exec request only in initializing mode
(src/helics/core/CommonCore.cpp:725-730); time settings below zero are refused
(src/helics/core/CommonCore.cpp:1117-1119).  Refused calls leave the federate as it is and return nothing
(`busy`). -/
def step (limit : Int) (f : Fed) : FedOp → Fed × MPR
  | .msg cmd => f.process cmd
  | .timeRequest t it nv nm =>
    if f.state = .executing ∧ f.mode then f.request t (f.limitIter limit it) nv nm else (f, .busy)
  | .execRequest it =>
    if f.state = .initializing ∧ f.mode then f.requestExec it else (f, .busy)
  | .value cmd => (f.valueArrives cmd, .continueProcessing)
  | .message cmd => (f.messageArrives cmd, .continueProcessing)
  | .setTime p v =>
    if v < 0 then (f, .busy) else ({ f with tc := f.tc.setTimeProperty p v }, .continueProcessing)
  | .setFlag o v => ({ f with tc := f.tc.setOptionFlag o v }, .continueProcessing)
  | .setMaxIterations v => ({ f with tc := f.tc.setMaxIterations v }, .continueProcessing)

/-- A newly registered federate (src/helics/core/FederateState.cpp:56-90,
src/helics/core/TimeCoordinator.hpp:48-88): every member has its default; the identifier, the outcome of the
interface check, the non-granting flag and the global-time option are arbitrary. -/
def initial (self : FedId) (ok nonGranting globalTime : Bool) : Fed :=
  { interfacesOk := ok, tc := { self := self, nonGranting := nonGranting, globalTime := globalTime } }

/-- The federate after a history. -/
def run (limit : Int) (f : Fed) (ops : List FedOp) : Fed := ops.foldl (fun f o => (f.step limit o).1) f

/-- The time handed to the user when an event ends a pending call in executing mode
(src/helics/core/FederateState.cpp:815-830): `NEXT_STEP` and `ITERATING` return the coordinator's granted time,
`HALTED` returns the largest time. -/
def returned (r : Fed × MPR) : Option Time :=
  if r.1.state = .executing then
    match r.2 with
    | .nextStep | .iterating => some r.1.tc.granted
    | .halted => some maxVal
    | _ => none
  else none

/-- All times handed to the user by a history, oldest first. -/
def grants (limit : Int) (f : Fed) : List FedOp → List Time
  | [] => []
  | o :: os =>
    let r := f.step limit o
    (match returned r with | some t => [t] | none => []) ++ grants limit r.1 os

end Fed
end Verif
