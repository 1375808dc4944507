import Verif.Model.TimeCoord
/-!
# The time coordinator of cores and brokers

Models `ForwardingTimeCoordinator` (src/helics/core/ForwardingTimeCoordinator.hpp,
src/helics/core/ForwardingTimeCoordinator.cpp) with the parts of `BaseTimeCoordinator` it uses, and how a core
(src/helics/core/CommonCore.cpp) and a broker (src/helics/core/CoreBroker.cpp) hand it the timing commands addressed
to them.  Not modelled: the debugging output, `grantTimeoutCheck`, and the commands a core sets aside while one of its
federates is blocked by a filter operation (src/helics/core/CommonCore.cpp:3561-3566,4748-4753).
-/
namespace Verif

/-- Data members of `ForwardingTimeCoordinator` (src/helics/core/ForwardingTimeCoordinator.hpp:28-38) and
`BaseTimeCoordinator` (src/helics/core/BaseTimeCoordinator.hpp:26-46); `hasDelayed` is
`mDelayedDependency.isValid()` (src/helics/core/TimeDependencies.hpp:132,214); `core` says whether the owner is a core or
a broker, `operating` that its state is at least `OPERATING`, `entered` is its `enteredExecutionMode`
(src/helics/core/BrokerBase.hpp), and `out` is everything passed to `sendMessageFunction` so far.  Simplification:
`upstream` and `downstream` keep only the `TimeData` part, which is all that is read of them. -/
structure Fwd where
  self : FedId := 0
  deps : Deps := []
  seq : Int := 0
  seqMod : Int := 0
  noParent : Bool := true
  executionMode : Bool := false
  checkingExec : Bool := false
  restrictive : Bool := false
  disconnected : Bool := false
  hasDelayed : Bool := false
  upstream : TimeData := {}
  downstream : TimeData := {}
  core : Bool := true
  operating : Bool := false
  entered : Bool := false
  out : List Packet := []
  deriving DecidableEq, Repr, Inhabited

namespace Fwd

/-- `sendMessageFunction` (src/helics/core/BrokerBase.cpp:547). -/
def send (w : Fwd) (m : Msg) : Fwd := { w with out := w.out ++ [.single m] }

/-- `normalizeSequenceCounter` (src/helics/core/BaseTimeCoordinator.hpp:64-69). -/
def normSeq (c : Int) : Int := if c > 32767 then 1 else c

/-- `generateTimeRequest` (src/helics/core/BaseTimeCoordinator.cpp:306-383): the same function as for federates. -/
def request (w : Fwd) (t : TimeData) (fed : FedId) (code : Int) : Msg :=
  TC.generateTimeRequest { self := w.self, seq := w.seq } t fed code

/-- The recipients of `transmitTimingMessagesUpstream` and what they get
(src/helics/core/ForwardingTimeCoordinator.cpp:206-226). -/
def upCopies (ds : Deps) (m : Msg) : List Packet :=
  ds.filterMap fun d =>
    if d.connection ≠ .child ∧ d.dependent = true then
      some (.single (if m.action = .execRequest ∨ m.action = .timeRequest
        then { m with dest := d.fedID, extraDestData := d.sequenceCounter } else { m with dest := d.fedID }))
    else none

/-- `transmitTimingMessagesUpstream` (src/helics/core/ForwardingTimeCoordinator.cpp:206-226). -/
def transmitUp (w : Fwd) (m : Msg) : Fwd := { w with out := w.out ++ upCopies w.deps m }

/-- The recipients of `transmitTimingMessagesDownstream` and what they get
(src/helics/core/ForwardingTimeCoordinator.cpp:228-272).  Simplification: the response code left in the message by an
earlier recipient is overwritten for each later one in the code too, so each copy carries its own. -/
def downCopies (ds : Deps) (m : Msg) (skip : FedId) : List Packet :=
  ds.filterMap fun d =>
    if m.action = .timeRequest ∨ m.action = .timeGrant then
      if d.connection = .child ∧ d.dependent = true ∧ d.fedID ≠ skip ∧
          ¬ (d.dependency = true ∧ d.next > m.actionTime ∧ d.next < cTerm) then
        some (.single (if m.action = .timeRequest
          then { m with dest := d.fedID, extraDestData := d.sequenceCounter } else { m with dest := d.fedID }))
      else none
    else if d.dependent = true ∧ d.fedID ≠ skip then
      some (.single (if m.action = .execRequest
        then { m with dest := d.fedID, extraDestData := d.sequenceCounter } else { m with dest := d.fedID }))
    else none

/-- `transmitTimingMessagesDownstream` (src/helics/core/ForwardingTimeCoordinator.cpp:228-272). -/
def transmitDown (w : Fwd) (m : Msg) (skip : FedId := invalidFed) : Fwd := { w with out := w.out ++ downCopies w.deps m skip }

/-- `generateDependencyInfoExcluding` (src/helics/core/ForwardingTimeCoordinator.cpp:22-44). -/
def excluding (w : Fwd) (fed : FedId) : TimeData :=
  let m := w.deps.minTimeUpstream w.restrictive w.self fed 0
  let pending := w.deps.any fun d =>
    d.dependency && d.fedID != fed && d.connection != .parent &&
      (!(FedId.isValid w.self) || d.minFedActual != w.self) && (d.state == .error || decide (d.next < cTerm))
  if m.state = .error ∧ pending = false then TimeData.ofStart maxVal .granted
  else (({} : TimeData).update m).1

/-- The message sent to one federate on behalf of the others
(src/helics/core/ForwardingTimeCoordinator.cpp:97-106,115-124).  It is sent even when it is a `CMD_IGNORE`. -/
def sendExcluding (w : Fwd) (fed : FedId) : Fwd :=
  let d := w.excluding fed
  w.send (w.request d fed d.responseSequenceCounter)

/-- The aggregates for both directions (src/helics/core/ForwardingTimeCoordinator.cpp:48-56). -/
def aggUp (w : Fwd) : TimeData := w.deps.minTimeUpstream w.restrictive w.self invalidFed w.seq
/-- See `aggUp`. -/
def aggDown (w : Fwd) : TimeData :=
  if w.noParent then w.aggUp else w.deps.minTimeDownstream w.restrictive w.self invalidFed w.seq

/-- The first part of `updateTimeFactors`: the new aggregates and whether each of them changed
(src/helics/core/ForwardingTimeCoordinator.cpp:48-82). -/
def refresh (w : Fwd) : Fwd × Bool × Bool :=
  let up := w.aggUp
  let down := w.aggDown
  let u := if up.state.rank > TimeState.execReq.rank ∨ w.executionMode = false then w.upstream.update up else (w.upstream, false)
  let d := if down.state.rank > TimeState.execReq.rank ∨ w.executionMode = false then w.downstream.update down else (w.downstream, false)
  let dn : TimeData :=
    if u.1.state = .timeReq then { d.1 with minDe := min d.1.minDe u.1.minDe, Te := min d.1.Te u.1.Te } else d.1
  ({ w with upstream := u.1, downstream := dn, seq := normSeq (u.1.sequenceCounter + w.seqMod) }, u.2, d.2)

/-- The messages sent upstream by `updateTimeFactors` (src/helics/core/ForwardingTimeCoordinator.cpp:83-89). -/
def tellUp (w : Fwd) : Fwd :=
  let m := w.request w.upstream invalidFed w.upstream.responseSequenceCounter
  if m.action ≠ .ignore then w.transmitUp m else w

/-- The messages sent downstream by `updateTimeFactors` when the downstream aggregate has changed
(src/helics/core/ForwardingTimeCoordinator.cpp:90-112). -/
def tellDown (w : Fwd) : Fwd :=
  let m := w.request w.downstream invalidFed 0
  if w.hasDelayed = true ∧ FedId.isValid w.downstream.minFed = true then
    (if m.action ≠ .ignore then w.transmitDown m w.downstream.minFed else w).sendExcluding w.downstream.minFed
  else if m.action ≠ .ignore then w.transmitDown m else w

/-- `ForwardingTimeCoordinator::updateTimeFactors` (src/helics/core/ForwardingTimeCoordinator.cpp:46-127). -/
def updateTimeFactors (w : Fwd) : Fwd :=
  let fed := w.aggDown.minFed
  let (w, up, down) := w.refresh
  let w := if up || down then w.tellUp else w
  if down then w.tellDown
  else if w.hasDelayed && FedId.isValid fed && w.executionMode then w.sendExcluding fed
  else w

/-- `checkForIssues(false)` (src/helics/core/TimeDependencies.cpp:710-728) with its effect on `mDelayedDependency`, and the
report sent to the broker when it finds conflicting flags (src/helics/core/BaseTimeCoordinator.cpp:401-408). -/
def checkIssues (w : Fwd) : Fwd :=
  let w := { w with hasDelayed := w.hasDelayed || w.deps.any Deps.delayedMutual }
  if w.deps.checkForIssues false then w.send { action := .globalError, dest := parentBroker, source := w.self } else w

/-- `BaseTimeCoordinator::processTimeMessage` (src/helics/core/BaseTimeCoordinator.cpp:385-411). -/
def processBase (w : Fwd) (cmd : Msg) : Fwd × TPR :=
  let w := match cmd.action with
    | .disconnect | .disconnectBroker | .disconnectFed | .disconnectCore | .broadcastDisconnect =>
      { w with deps := w.deps.removeDependent cmd.source }
    | _ => w
  let r := w.deps.updateTime cmd
  let w := { w with deps := r.1 }
  (if r.2 = .processedAndCheck then w.checkIssues else w, r.2)

/-- `ForwardingTimeCoordinator::processTimeMessage` (src/helics/core/ForwardingTimeCoordinator.cpp:150-162). -/
def processTimeMessage (w : Fwd) (cmd : Msg) : Fwd × TPR :=
  let r := w.processBase cmd
  if r.2 = .processedNewRequest then
    let sm := if r.1.seqMod + 100 > 16000 then 100 else r.1.seqMod + 100
    ({ r.1 with seqMod := sm, seq := normSeq (r.1.upstream.sequenceCounter + sm) }, r.2)
  else r

/-- May the owner enter executing mode (src/helics/core/ForwardingTimeCoordinator.cpp:166-187)? -/
def mayEnter (w : Fwd) : Bool :=
  w.deps.readyForExecEntry false false ||
    (w.downstream.state == .execReqIter &&
      w.deps.all fun d => !(d.dependency && decide (d.state.rank < TimeState.execReq.rank)) ||
        (d.minFed == w.self && d.responseSequenceCounter == w.downstream.sequenceCounter))

/-- `ForwardingTimeCoordinator::checkExecEntry` (src/helics/core/ForwardingTimeCoordinator.cpp:164-204); the flag says that the
result is `NEXT_STEP`. -/
def checkExecEntry (w : Fwd) : Fwd × Bool :=
  if w.mayEnter then
    let w := { w with executionMode := true, downstream := { w.downstream with next := 0, state := .granted, minDe := 0 } }
    let m : Msg := { action := .execGrant, source := w.self }
    ((w.transmitDown m).transmitUp m, true)
  else (w, false)

/-- `BaseTimeCoordinator::sendTimingInfo` (src/helics/core/BaseTimeCoordinator.cpp:286-304). -/
def sendTimingInfo (w : Fwd) : Fwd :=
  { w with out := w.out ++ w.deps.filterMap fun d =>
      if d.dependent then some (.single { action := .timingInfo, source := w.self, dest := d.fedID, extraData := 1 }) else none }

/-- `BaseTimeCoordinator::enteringExecMode` (src/helics/core/BaseTimeCoordinator.cpp:44-78). -/
def enteringExecMode (w : Fwd) : Fwd :=
  if w.executionMode then w
  else
    let w := { w with checkingExec := true }
    let w := if w.deps = [] then w else w.updateTimeFactors.checkIssues
    if w.deps ≠ [] ∧ w.deps.checkForIssues false = true then w
    else ({ w with noParent := !(w.deps.any fun d => d.connection == Conn.parent) }).sendTimingInfo

/-- `BaseTimeCoordinator::disconnect` (src/helics/core/BaseTimeCoordinator.cpp:80-123). -/
def disconnect (w : Fwd) : Fwd :=
  if w.disconnected then w
  else
    let bye : Msg := { action := .disconnect, source := w.self }
    match w.deps with
    | [] => { w with disconnected := true }
    | [d] =>
      let w :=
        if TC.needsBye d then
          (if d.fedID = w.self then (w.processTimeMessage { bye with dest := d.fedID }).1
           else w.send { bye with dest := d.fedID })
        else w
      { w with disconnected := true }
    | ds =>
      let ms := TC.appendAll ((ds.filter fun d => TC.needsBye d && d.fedID != w.self).map
        fun d => { bye with dest := d.fedID })
      let hasLocal := ds.any fun d => TC.needsBye d && d.fedID == w.self
      let w := if hasLocal then (w.processTimeMessage { bye with dest := w.self }).1 else w
      { w with out := w.out ++ [.multi ms], disconnected := true }

/-- `addDependency`, `setAsChild`, `setAsParent` (src/helics/core/BaseTimeCoordinator.cpp:163-203). -/
def addDependency (w : Fwd) (g : FedId) : Fwd × Bool :=
  let r := w.deps.addDependency g
  let ds := if r.2 ∧ g = w.self then r.1.modify g (fun d => { d with connection := .self }) else r.1
  ({ w with deps := ds }, r.2)
/-- See `addDependency`. -/
def setAsChild (w : Fwd) (g : FedId) : Fwd :=
  if g = w.self then w else { w with deps := w.deps.modify g (fun d => { d with connection := .child }) }
/-- See `addDependency`. -/
def setAsParent (w : Fwd) (g : FedId) : Fwd :=
  if g = w.self then w
  else match w.deps.find g with
    | none => w
    | some _ => { w with deps := w.deps.modify g (fun d => { d with connection := .parent }), noParent := false }

/-- The change of the table by `processDependencyUpdateMessage`, and whether a dependency was added
(src/helics/core/BaseTimeCoordinator.cpp:413-440). -/
def changeDeps (w : Fwd) (cmd : Msg) : Fwd × Bool :=
  match cmd.action with
  | .addDependency => w.addDependency cmd.source
  | .removeDependency => ({ w with deps := w.deps.removeDependency cmd.source }, false)
  | .addDependent => ({ w with deps := (w.deps.addDependent cmd.source).1 }, false)
  | .removeDependent => ({ w with deps := w.deps.removeDependent cmd.source }, false)
  | .addInterdependency =>
    let r := w.addDependency cmd.source
    ({ r.1 with deps := (r.1.deps.addDependent cmd.source).1 }, r.2)
  | .removeInterdependency =>
    ({ w with deps := (w.deps.removeDependency cmd.source).removeDependent cmd.source }, false)
  | .timingInfo => ({ w with deps := (w.deps.updateTime cmd).1 }, false)
  | _ => (w, false)

/-- How the added dependency is related (src/helics/core/BaseTimeCoordinator.cpp:441-453). -/
def relate (w : Fwd) (cmd : Msg) : Fwd :=
  let w := if cmd.child then w.setAsChild cmd.source else w
  let w := if cmd.parent then w.setAsParent cmd.source else w
  if cmd.counter > 0 then
    { w with deps := w.deps.modify cmd.source (fun d => { d with timingVersion := toI8 cmd.counter }) }
  else w

/-- `processDependencyUpdateMessage` (src/helics/core/BaseTimeCoordinator.cpp:413-454). -/
def processDependencyUpdate (w : Fwd) (cmd : Msg) : Fwd :=
  let r := w.changeDeps cmd
  if r.2 then r.1.relate cmd else r.1

/-- `checkExecEntry`, remembering success in `enteredExecutionMode`; with `orUpdate` a failure is followed by
`updateTimeFactors` (src/helics/core/CommonCore.cpp:4757-4763, src/helics/core/CoreBroker.cpp:1350-1358). -/
def tryEnter (w : Fwd) (orUpdate : Bool) : Fwd :=
  let r := w.checkExecEntry
  if r.2 then { r.1 with entered := true } else if orUpdate then r.1.updateTimeFactors else r.1

/-- A timing command addressed to a core: `processExecRequest` for the execution commands
(src/helics/core/CommonCore.cpp:4754-4765), `processCommandsForCore` for the others (src/helics/core/CommonCore.cpp:5172-5185).
Not modelled here: what a core does when its broker disconnects (src/helics/core/CommonCore.cpp:5186-5207), see `leave`. -/
def handleCore (w : Fwd) (cmd : Msg) : Fwd :=
  match cmd.action with
  | .execRequest | .execGrant =>
    let w := (w.processTimeMessage cmd).1
    if w.entered then w else w.tryEnter true
  | .addDependency | .removeDependency | .addDependent | .removeDependent | .addInterdependency | .removeInterdependency =>
    w.processDependencyUpdate cmd
  | .disconnect | .broadcastDisconnect | .disconnectCore | .disconnectBroker | .disconnectFed | .timeGrant | .timeRequest
  | .priorityDisconnect | .terminateImmediately | .error | .localError | .globalError | .timingInfo =>
    let r := w.processTimeMessage cmd
    if w.entered then (if r.2 ≠ .notProcessed then r.1.updateTimeFactors else r.1) else r.1.tryEnter false
  | _ => w

/-- A timing command addressed to a broker: the execution commands (src/helics/core/CoreBroker.cpp:1344-1362), time
requests and grants (src/helics/core/CoreBroker.cpp:1397-1411), disconnects (src/helics/core/CoreBroker.cpp:3348-3366), errors
(src/helics/core/CoreBroker.cpp:3328-3331) and changes of the dependencies (src/helics/core/CoreBroker.cpp:1533-1546). -/
def handleBroker (w : Fwd) (cmd : Msg) : Fwd :=
  match cmd.action with
  | .execRequest | .execGrant =>
    let r := w.processTimeMessage cmd
    if r.2 ≠ .notProcessed ∧ w.entered = false ∧ w.operating = true then r.1.tryEnter true else r.1
  | .timeRequest | .timeGrant | .requestCurrentTime =>
    let r := w.processTimeMessage cmd
    if r.2 = .notProcessed then r.1
    else if w.entered then r.1.updateTimeFactors
    else if w.operating then r.1.tryEnter false
    else r.1
  | .disconnect | .priorityDisconnect =>
    if w.entered then
      let r := w.processTimeMessage cmd
      if r.2 ≠ .notProcessed then r.1.updateTimeFactors else r.1
    else if w.operating then
      let r := w.processTimeMessage cmd
      if r.2 ≠ .notProcessed then r.1.tryEnter false else r.1
    else w
  | .localError => (w.processTimeMessage cmd).1
  | .addDependency | .removeDependency | .addDependent | .removeDependent | .addInterdependency | .removeInterdependency
  | .timingInfo => w.processDependencyUpdate cmd
  | _ => w

/-- A command addressed to the owner of the coordinator. -/
def handle (w : Fwd) (cmd : Msg) : Fwd := if w.core then w.handleCore cmd else w.handleBroker cmd

/-- The federation has been initialized (src/helics/core/CommonCore.cpp:4706-4729, src/helics/core/CoreBroker.cpp:1682-1689,
3056-3064).  A core without active dependencies disconnects its coordinator at once. -/
def start (w : Fwd) : Fwd :=
  let w := ({ w with operating := true }).enteringExecMode.tryEnter false
  if w.core && !w.deps.hasActive then w.disconnect else w

end Fwd
end Verif
