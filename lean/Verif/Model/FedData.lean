import Verif.Model.Endpoint
/-!
# Values and messages of a federate (src/helics/core/FederateState.cpp)

The inputs and endpoints a federate holds, and the functions that move them to a granted time, read them and
compute the next event times.
-/
namespace Verif

/-- The data members of `FederateState` used below: `time_granted`, `wait_for_current_time`, and the
interfaces with their handles, in registration order (src/helics/core/FederateState.hpp). -/
structure FedData where
  granted : Time := initializationTime
  allowedSend : Time := 0
  iterating : Bool := false
  wait : Bool := false
  inputs : List (Int × Input) := []
  endpoints : List (Int × Endpoint) := []
  events : List Int := []
  eventMessages : List Int := []
  queuedBytes : UInt64 := 0
  deriving Repr, Inhabited

namespace FedData

/-- `FederateState::nextValueTime` (src/helics/core/FederateState.cpp:2457-2469). -/
def nextValueTime (f : FedData) : Time :=
  f.inputs.foldl (fun first i =>
    let nvt := i.2.nextValueTime
    if nvt ≥ f.granted then (if nvt < first then nvt else first) else first) maxVal

/-- `FederateState::nextMessageTime` (src/helics/core/FederateState.cpp:2472-2485). -/
def nextMessageTime (f : FedData) : Time :=
  f.endpoints.foldl (fun first e =>
    let mt := if e.2.firstMessageTime < f.granted then f.granted else e.2.firstMessageTime
    if mt < first then mt else first) maxVal

/-- The three ways time is moved (src/helics/core/FederateState.cpp:854-906). -/
inductive Move | upTo | inclusive | nextIteration
  deriving DecidableEq, Repr

/-- The input update selected by a move (src/helics/core/FederateState.cpp:859, 876, 894). -/
def Move.input : Move → Input → Time → Input × Bool
  | .upTo, i, t => i.updateTimeUpTo t
  | .inclusive, i, t => i.updateTimeInclusive t
  | .nextIteration, i, t => i.updateTimeNextIteration t

/-- The endpoint update selected by a move (src/helics/core/FederateState.cpp:866, 884, 902). -/
def Move.endpoint : Move → Endpoint → Time → Endpoint × Bool
  | .upTo, e, t => e.updateTimeUpTo t
  | .inclusive, e, t => e.updateTimeInclusive t
  | .nextIteration, e, t => e.updateTimeNextIteration t

/-- `fillEventVectorUpTo`, `fillEventVectorInclusive`, `fillEventVectorNextIteration` and `updateQueuedValueBytes`
(src/helics/core/FederateState.cpp:854-914); the buffer warning is modelled separately. -/
def fillEventVector (m : Move) (f : FedData) (t : Time) : FedData :=
  let ins := f.inputs.map fun i => (i.1, m.input i.2 t)
  let eps := f.endpoints.map fun e => (e.1, m.endpoint e.2 t)
  { f with
    inputs := ins.map fun i => (i.1, i.2.1)
    events := (ins.filter (·.2.2)).map (·.1)
    queuedBytes := (ins.map fun i => i.2.1.queued).sum
    endpoints := eps.map fun e => (e.1, e.2.1)
    eventMessages := (eps.filter (·.2.2)).map (·.1) }

/-- The move chosen when a time request returns (src/helics/core/FederateState.cpp:831-851); `none` for the other
request kinds. -/
def moveForTimeReturn (it : IterReq) (granted next : Time) (wait : Bool) : Option Move :=
  match it with
  | .forceIteration => some .nextIteration
  | .iterateIfNeeded => some (if granted < next || wait then .nextIteration else .upTo)
  | .noIterations => some (if granted < next || wait then .inclusive else .upTo)
  | _ => none

/-- `FederateState::updateDataForTimeReturn` (src/helics/core/FederateState.cpp:815-852); `coordGranted` and
`coordSend` are the coordinator's granted and allowed send times. -/
def updateDataForTimeReturn (f : FedData) (halted iterating : Bool) (coordGranted coordSend next : Time) (it : IterReq) : FedData :=
  let f1 := if halted then { f with granted := maxVal, allowedSend := maxVal, iterating := false }
            else { f with granted := coordGranted, allowedSend := coordSend, iterating := iterating }
  match moveForTimeReturn it f1.granted next f1.wait with
  | some m => fillEventVector m f1 f1.granted
  | none => f1

/-- `FederateState::receive` (src/helics/core/FederateState.cpp:302-309) for the endpoint with handle `h`. -/
def receiveFrom (h : Int) (granted : Time) : List (Int × Endpoint) → List (Int × Endpoint) × Option EMsg
  | [] => ([], none)
  | (k, e) :: es =>
    if k = h then ((k, (e.getMessage granted).1) :: es, (e.getMessage granted).2)
    else ((k, e) :: (receiveFrom h granted es).1, (receiveFrom h granted es).2)

/-- `FederateState::receive` (src/helics/core/FederateState.cpp:302-309). -/
def receive (f : FedData) (h : Int) : FedData × Option EMsg :=
  ({ f with endpoints := (receiveFrom h f.granted f.endpoints).1 }, (receiveFrom h f.granted f.endpoints).2)

/-- The search loop of `receiveAny` (src/helics/core/FederateState.cpp:317-323): earliest time so far and the index of
its endpoint. -/
def earliest : List (Int × Endpoint) → Nat → Time → Option Nat → Time × Option Nat
  | [], _, t, idx => (t, idx)
  | e :: es, n, t, idx =>
    if e.2.firstMessageTime < t then earliest es (n + 1) e.2.firstMessageTime (some n) else earliest es (n + 1) t idx

/-- `FederateState::receiveAny` (src/helics/core/FederateState.cpp:311-336): the message and the reported handle
(`none` for the default handle). -/
def receiveAny (f : FedData) : FedData × Option EMsg × Option Int :=
  match earliest f.endpoints 0 maxVal none with
  | (_, none) => (f, none, none)
  | (t, some n) =>
    if t ≤ f.granted then
      match f.endpoints[n]? with
      | none => (f, none, none)
      | some (h, e) =>
        let (e', r) := e.getMessage f.granted
        ({ f with endpoints := f.endpoints.set n (h, e') }, r, if r.isSome then some h else none)
    else (f, none, none)

/-- `FederateState::getQueueSize()` (src/helics/core/FederateState.cpp:287-294). -/
def getQueueSize (f : FedData) : Int := (f.endpoints.map (·.2.avail)).sum

end FedData
end Verif
