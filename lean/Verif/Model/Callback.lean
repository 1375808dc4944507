import Verif.Model.FedRun
/-!
# Callback federates

Models how a federate that runs by callbacks is driven: `callbackProcessing`, `callbackReturnResult`, `initCallbackProcessing` and
`execCallbackProcessing` of `FederateState` (src/helics/core/FederateState.cpp:1164-1374) on top of the federate's state machine
(`Model/Fed`), and the operator that `CallbackFederate` puts between them and the user's functions
(src/helics/application_api/CallbackFederate.cpp:91-152).

Simplifications: the commands put into the core's queue by the callbacks come back to the federate in any order, as
do all others (this covers the delay queues and the time blocks of the core); the report of an error to the core
(src/helics/core/FederateState.cpp:1348-1364), the event lists and the user's other callbacks are left out; the stop time is fixed; `finalize` called by the
application before it enters initializing mode processes the queue itself (src/helics/core/CommonCore.cpp:565-568) and is
left out.
-/
namespace Verif
namespace Callback

/-- What the user's functions answer if they are called; `none` is an exception. -/
structure Ans where
  init : Option IterReq := some .noIterations
  op : Option (Time × IterReq) := some (0, .noIterations)
  deriving DecidableEq, Repr

/-- The modes of the federate object that occur here (src/helics/application_api/Federate.hpp:61-80). -/
inductive Mode | startup | initializing | executing | finalize | error
  deriving DecidableEq, Repr

/-- The calls of the user's functions, with the mode the federate object reports during the call and the answer;
`stop` is the call at or after the stop time, which the user does not see
(src/helics/application_api/CallbackFederate.cpp:113-114). -/
inductive Call
  | init (m : Mode) (a : Option IterReq)
  | operate (t : Time) (iterating : Bool) (m : Mode) (a : Option (Time × IterReq))
  | stop (t : Time)
  | finalize
  | error
  deriving DecidableEq, Repr

/-- The commands callbacks put into the core's queue. -/
inductive Own
  | exec (it : IterReq)
  | time (t : Time) (it : IterReq)
  | disconnect
  | localError
  deriving DecidableEq, Repr

structure Cb where
  fed : Fed
  /-- `initRequested` (src/helics/core/FederateState.hpp:122) -/
  started : Bool := false
  app : Mode := .startup
  stop : Time := maxVal
  told : List Call := []
  /-- put into the core's queue and not yet back -/
  pend : List Own := []
  /-- own time and exec requests the federate has processed -/
  done : Nat := 0
  deriving DecidableEq, Repr

namespace Cb

/-- What is sent after a call in initializing mode (src/helics/core/FederateState.cpp:1166-1194; exceptions:
src/helics/core/FederateState.cpp:1291-1311). -/
def afterInit : Option IterReq → Own
  | some .haltOperations => .disconnect
  | some .errorCondition => .localError
  | none => .localError
  | some it => .exec it

/-- What is sent after a call in executing mode (src/helics/core/FederateState.cpp:1199-1229). -/
def afterOp : Option (Time × IterReq) → Own
  | some (_, .haltOperations) => .disconnect
  | some (_, .errorCondition) => .localError
  | none => .localError
  | some (t, it) => .time t it

/-- `initCallbackProcessing` with `initializeOperationsCallback` (src/helics/core/FederateState.cpp:1164-1195,
src/helics/application_api/CallbackFederate.cpp:91-100): both branches set the mode to initializing. -/
def initCall (c : Cb) (a : Ans) : Cb :=
  { c with app := .initializing, told := c.told ++ [.init .initializing a.init], pend := c.pend ++ [afterInit a.init] }

/-- `execCallbackProcessing` with `operateCallback` (src/helics/core/FederateState.cpp:1197-1230,
src/helics/application_api/CallbackFederate.cpp:102-127). -/
def opCall (c : Cb) (iterating : Bool) (a : Ans) : Cb :=
  let t := c.fed.tc.granted
  let m := if t = 0 ∧ iterating = false then .executing else c.app
  if t ≥ c.stop then
    { c with app := m, told := c.told ++ [.stop t], pend := c.pend ++ [.disconnect] }
  else
    { c with app := m, told := c.told ++ [.operate t iterating m a.op], pend := c.pend ++ [afterOp a.op] }

/-- The second half of `callbackReturnResult` (src/helics/core/FederateState.cpp:1254-1290). -/
def proceed (c : Cb) (last : FedState) (p : MPR) (a : Ans) : Cb :=
  if p = .iterating ∨ p = .nextStep then
    match last with
    | .created => c.initCall a
    | .initializing => if c.fed.state = .initializing then c.initCall a else c.opCall false a
    | .executing => c.opCall (p = .iterating) a
    | _ => c
  else c

/-- `callbackReturnResult` (src/helics/core/FederateState.cpp:1232-1311). -/
def returnResult (c : Cb) (last : FedState) (p : MPR) (a : Ans) : Cb :=
  if last ≠ c.fed.state ∧ c.fed.state = .finished then
    if last ≠ .errored then { c with app := .finalize, told := c.told ++ [.finalize] } else c
  else if last ≠ c.fed.state ∧ c.fed.state = .errored then
    if last ≠ .finished then { c with app := .error, told := c.told ++ [.error] } else c
  else c.proceed last p a

/-- A command taken from the queue: one of the federate's own that comes back (`nv`, `nm`: times of the next queued value and
message), or any other. -/
inductive Item
  | own (k : Nat) (nv nm : Time) (a : Ans)
  | other (o : FedOp) (a : Ans)
  deriving DecidableEq, Repr

def Item.ans : Item → Ans
  | .own _ _ _ a => a
  | .other _ a => a

/-- `processActionMessage` on an own command (src/helics/core/FederateState.cpp:1505-1595). -/
def ownResult (f : Fed) (nv nm : Time) : Own → Fed × MPR
  | .exec it => f.requestExec it
  | .time t it => f.request t it nv nm
  | .disconnect => f.process { action := .disconnect, source := f.tc.self, dest := f.tc.self }
  | .localError => f.process { action := .localError, source := f.tc.self, dest := f.tc.self }

/-- `processActionMessage` on any other command; the calls for times and executing mode are refused for callback federates
(src/helics/core/CommonCore.cpp:731-734,943-946,1003-1006). -/
def otherResult (f : Fed) : FedOp → Fed × MPR
  | .msg cmd => f.process cmd
  | .timeRequest .. => (f, .continueProcessing)
  | .execRequest _ => (f, .continueProcessing)
  | o => ((f.step 0 o).1, .continueProcessing)

def isRequest : Own → Bool
  | .exec _ => true
  | .time _ _ => true
  | _ => false

/-- the state after taking the command, and the result -/
def take (c : Cb) : Item → Cb × MPR
  | .own k nv nm _ =>
    match c.pend[k]? with
    | some o =>
      let r := ownResult c.fed nv nm o
      ({ c with fed := r.1, pend := c.pend.eraseIdx k, done := c.done + (if isRequest o then 1 else 0) }, r.2)
    | none => (c, .continueProcessing)
  | .other o _ =>
    let r := otherResult c.fed o
    ({ c with fed := r.1 }, r.2)

/-- One turn of the loop of `callbackProcessing` (src/helics/core/FederateState.cpp:1332-1373); the first component is `cState`. -/
def turn (initError : Bool) (s : FedState × Cb) (i : Item) : FedState × Cb :=
  let r := s.2.take i
  let p := if initError then .errorResult else r.2
  if p.returnable then (r.1.fed.state, r.1.returnResult s.1 p i.ans) else (s.1, r.1)

/-- `callbackProcessing` (src/helics/core/FederateState.cpp:1312-1374). -/
def processing (c : Cb) (is : List Item) : Cb :=
  if c.fed.state = .finished ∨ c.started = false then c
  else (is.foldl (turn (c.fed.state = .errored)) (c.fed.state, c)).2

/-- What happens to a callback federate. -/
inductive Ev
  /-- the application enters initializing mode (src/helics/core/CommonCore.cpp:686-700) -/
  | enterInit
  /-- the core runs the callback processing on the commands queued -/
  | commands (is : List Item)
  deriving DecidableEq, Repr

def step (c : Cb) : Ev → Cb
  | .enterInit => { c with started := true }
  | .commands is => c.processing is

end Cb
end Callback
end Verif
