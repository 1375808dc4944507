import Verif.Model.Forward
/-!
# The time coordinator of a broker that keeps a master clock

Models `GlobalTimeCoordinator` (src/helics/core/GlobalTimeCoordinator.hpp, src/helics/core/GlobalTimeCoordinator.cpp), which
a broker uses when it is started with the `global_time` option (src/helics/core/BrokerBase.cpp:538-545), with the parts of
`BaseTimeCoordinator` it uses and how the broker hands it the timing commands (src/helics/core/CoreBroker.cpp).  Every
federate of such a federation depends on the broker and the broker on every federate.  The broker finds the earliest
time at which anything can happen, asks the federates concerned whether that is still so ("poll"), and when all have
answered tells them the time they may advance to ("announcement").  Not modelled: the debugging output.
-/
namespace Verif

/-- Data members of `GlobalTimeCoordinator` (src/helics/core/GlobalTimeCoordinator.hpp:28-37); `base` has those of
`BaseTimeCoordinator` and what the owner keeps, as for `Fwd`.  The member `iterating` is never used. -/
structure Glob where
  base : Fwd := {}
  minTime : Time := minVal
  state : TimeState := .initialized
  nextEvent : Time := maxVal
  newRequest : Bool := true
  deriving DecidableEq, Repr, Inhabited

namespace Glob

/-- `findNextTriggerEvent` (src/helics/core/GlobalTimeCoordinator.cpp:24-35). -/
def findNextTriggerEvent (ds : Deps) : Time :=
  ds.foldl (fun m d => if d.nonGranting then m else if d.Te < m then d.Te else m) maxVal

/-- `checkForTriggered` (src/helics/core/GlobalTimeCoordinator.cpp:37-59). -/
def checkForTriggered (ds : Deps) (t : Time) : Bool × Time :=
  ds.foldl (fun (acc : Bool × Time) d =>
    if d.next > t then (acc.1, if d.Te < acc.2 then d.Te else acc.2)
    else if d.nonGranting then (acc.1 || d.triggered, acc.2)
    else (acc.1, if d.Te < acc.2 then d.Te else acc.2)) (false, maxVal)

/-- `incrementSequenceCounter` (src/helics/core/BaseTimeCoordinator.hpp:56-62). -/
def incSeq (c : Int) : Int := if c + 1 > 32767 then 1 else c + 1

/-- The time up to which federates are concerned by the next event
(src/helics/core/GlobalTimeCoordinator.cpp:99-100,107-108,113). -/
def trigTime (e : Time) : Time := if e < cTerm then e + timeEpsilon else e

/-- The test choosing whom to poll and whom to tell (src/helics/core/GlobalTimeCoordinator.cpp:67,133). -/
def concerned (t : Time) (d : DepInfo) : Bool := decide (d.next ≤ t) && decide (d.next < cTerm)

/-- `sendTimeUpdateRequest` (src/helics/core/GlobalTimeCoordinator.cpp:61-75). -/
def sendTimeUpdateRequest (g : Glob) (t : Time) : Glob :=
  let sq := Fwd.normSeq g.base.seq
  { g with base := { g.base with
      seq := sq
      deps := g.base.deps.map fun d =>
        if concerned t d then { d with updateRequested := true, grantedIteration := sq } else d
      out := g.base.out ++ g.base.deps.filterMap fun d =>
        if concerned t d then
          some (.single { action := .requestCurrentTime, source := g.base.self, dest := d.fedID, counter := sq,
                          extraDestData := d.sequenceCounter })
        else none } }

/-- A new round of questions: `incrementSequenceCounter`, `mNewRequest = false`, `sendTimeUpdateRequest`
(src/helics/core/GlobalTimeCoordinator.cpp:98-102,119-121). -/
def poll (g : Glob) (t : Time) : Glob :=
  sendTimeUpdateRequest { g with newRequest := false, base := { g.base with seq := incSeq g.base.seq } } t

/-- The announcement (src/helics/core/GlobalTimeCoordinator.cpp:124-138). -/
def announce (g : Glob) (t : Time) : Glob :=
  let sq := incSeq g.base.seq
  { g with base := { g.base with
      seq := sq
      out := g.base.out ++ g.base.deps.filterMap fun d =>
        if concerned t d then
          some (.single { action := .timeRequest, source := g.base.self, dest := d.fedID, actionTime := t, Te := t,
                          Tdemin := t, counter := sq, extraDestData := d.sequenceCounter })
        else none } }

/-- The earliest time in the table (src/helics/core/GlobalTimeCoordinator.cpp:79). -/
def stream (g : Glob) : TimeData := g.base.deps.minTimeUpstream true g.base.self invalidFed 0

/-- The part of `updateTimeFactors` for `currentTimeState == time_requested`
(src/helics/core/GlobalTimeCoordinator.cpp:106-141).  Not modelled: the complaint on the console when a federate not
polled has to answer (src/helics/core/GlobalTimeCoordinator.cpp:142-161). -/
def collect (g : Glob) (ts : TimeData) : Glob :=
  let trig := trigTime g.nextEvent
  if g.base.deps.verifySeq trig g.base.seq then
    let tr := checkForTriggered g.base.deps trig
    let trig' := trigTime tr.2
    let verified := decide (tr.2 ≤ g.nextEvent) || g.base.deps.verifySeq trig' g.base.seq
    let g' := { g with nextEvent := tr.2 }
    if tr.1 || !verified || g'.newRequest then g'.poll trig'
    else { g'.announce trig' with state := .granted, minTime := ts.Te, nextEvent := ts.Te }
  else g

/-- `updateTimeFactors` (src/helics/core/GlobalTimeCoordinator.cpp:77-166).  The result is not used by any caller. -/
def updateTimeFactors (g : Glob) : Glob :=
  let ts := g.stream
  if g.base.executionMode = false ∧ ts.state.rank < TimeState.granted.rank then
    { g with state := ts.state, minTime := ts.next, nextEvent := ts.next }
  else if ts.state = .granted then { g with state := .granted, minTime := ts.next, nextEvent := ts.next }
  else if ts.state = .timeReq ∨ ts.state = .timeReqIter ∨ ts.state = .timeReqRequireIter then
    if g.state = .granted then
      let e := findNextTriggerEvent g.base.deps
      poll { g with state := .timeReq, minTime := ts.next, nextEvent := e } (trigTime e)
    else if g.state = .timeReq then g.collect ts
    else g
  else g

/-- `processTimeMessage` (src/helics/core/GlobalTimeCoordinator.cpp:168-175). -/
def processTimeMessage (g : Glob) (cmd : Msg) : Glob × TPR :=
  let r := g.base.processBase cmd
  ({ g with base := r.1, newRequest := if r.2 = .processedNewRequest then true else g.newRequest }, r.2)

/-- May executing mode be entered (src/helics/core/GlobalTimeCoordinator.cpp:209-227)? -/
def mayEnter (g : Glob) : Bool :=
  g.base.deps.readyForExecEntry false false ||
    (g.state == .execReqIter &&
      g.base.deps.all fun d => !(d.dependency && decide (d.state.rank < TimeState.execReq.rank)) ||
        (d.minFed == g.base.self && d.responseSequenceCounter == g.base.seq))

/-- `checkExecEntry` (src/helics/core/GlobalTimeCoordinator.cpp:194-242); the flag says that the result is `NEXT_STEP`.
Simplification: the warning sent when `enteringExecMode` was not called first is not modelled, so this requires
`checkingExec`.  The two transmit functions (src/helics/core/GlobalTimeCoordinator.cpp:244-312) are only ever given this
message, for which they do what those of the forwarding coordinator do. -/
def checkExecEntry (g : Glob) : Glob × Bool :=
  if g.base.checkingExec && g.mayEnter then
    let m : Msg := { action := .execGrant, source := g.base.self }
    let w := { g.base with executionMode := true }
    ({ g with base := (w.transmitDown m).transmitUp m, minTime := 0, state := .granted, nextEvent := 0 }, true)
  else (g, false)

/-- `checkExecEntry`, remembering success in `enteredExecutionMode` (src/helics/core/CoreBroker.cpp:1350-1358,1403-1409). -/
def tryEnter (g : Glob) (orUpdate : Bool) : Glob :=
  let r := g.checkExecEntry
  if r.2 then { r.1 with base := { r.1.base with entered := true } } else if orUpdate then r.1.updateTimeFactors else r.1

/-- `BaseTimeCoordinator::enteringExecMode` (src/helics/core/BaseTimeCoordinator.cpp:44-78) with this class's
`updateTimeFactors`. -/
def enteringExecMode (g : Glob) : Glob :=
  if g.base.executionMode then g
  else
    let g : Glob := { g with base := { g.base with checkingExec := true } }
    let g : Glob := if g.base.deps = [] then g else
      { g.updateTimeFactors with base := g.updateTimeFactors.base.checkIssues }
    if g.base.deps ≠ [] ∧ g.base.deps.checkForIssues false = true then g
    else { g with base := ({ g.base with noParent := !(g.base.deps.any fun d => d.connection == Conn.parent) }).sendTimingInfo }

/-- The federation has been initialized (src/helics/core/CoreBroker.cpp:1682-1689,3056-3064). -/
def start (g : Glob) : Glob :=
  (enteringExecMode { g with base := { g.base with operating := true } }).tryEnter false

/-- A timing command addressed to the broker: the execution commands (src/helics/core/CoreBroker.cpp:1344-1362), time
requests and grants (src/helics/core/CoreBroker.cpp:1397-1411), disconnects (src/helics/core/CoreBroker.cpp:3348-3366), errors
(src/helics/core/CoreBroker.cpp:3328-3331) and changes of the dependencies (src/helics/core/CoreBroker.cpp:1533-1546). -/
def handle (g : Glob) (cmd : Msg) : Glob :=
  match cmd.action with
  | .execRequest | .execGrant =>
    let r := g.processTimeMessage cmd
    if r.2 ≠ .notProcessed ∧ g.base.entered = false ∧ g.base.operating = true then r.1.tryEnter true else r.1
  | .timeRequest | .timeGrant | .requestCurrentTime =>
    let r := g.processTimeMessage cmd
    if r.2 = .notProcessed then r.1
    else if g.base.entered then r.1.updateTimeFactors
    else if g.base.operating then r.1.tryEnter false
    else r.1
  | .disconnect | .priorityDisconnect =>
    if g.base.entered then
      let r := g.processTimeMessage cmd
      if r.2 ≠ .notProcessed then r.1.updateTimeFactors else r.1
    else if g.base.operating then
      let r := g.processTimeMessage cmd
      if r.2 ≠ .notProcessed then r.1.tryEnter false else r.1
    else g
  | .localError => (g.processTimeMessage cmd).1
  | .addDependency | .removeDependency | .addDependent | .removeDependent | .addInterdependency | .removeInterdependency
  | .timingInfo => { g with base := g.base.processDependencyUpdate cmd }
  | _ => g

end Glob
end Verif
