import Verif.Model.Time
/-!
# Dependency table: `TimeData`, `DependencyInfo`, `TimeDependencies`

Models src/helics/core/TimeDependencies.hpp and src/helics/core/TimeDependencies.cpp.
JSON output helpers are not modelled.
-/
namespace Verif

/-- `enum class TimeState` (src/helics/core/TimeDependencies.hpp:19-29). -/
inductive TimeState
  | initialized | execReqRequireIter | execReqIter | execReq | granted
  | timeReqRequireIter | timeReqIter | timeReq | error
  deriving DecidableEq, Repr, Inhabited

/-- The numeric value used by `<`, `<=`, `>=` on the enum (src/helics/core/TimeDependencies.hpp:19-29). -/
def TimeState.rank : TimeState → Nat
  | .initialized => 0
  | .execReqRequireIter => 1
  | .execReqIter => 2
  | .execReq => 3
  | .granted => 5
  | .timeReqRequireIter => 6
  | .timeReqIter => 7
  | .timeReq => 8
  | .error => 10

/-- `enum class ConnectionType` (src/helics/core/TimeDependencies.hpp:32-38). -/
inductive Conn | independent | parent | child | self | none
  deriving DecidableEq, Repr, Inhabited

/-- `enum class GrantDelayMode` (src/helics/core/TimeDependencies.hpp:53). -/
inductive DelayMode | none | interrupted | waiting
  deriving DecidableEq, Repr, Inhabited

/-- `getDelayMode` (src/helics/core/TimeDependencies.hpp:55-59). -/
def getDelayMode (waiting interrupted : Bool) : DelayMode :=
  if waiting then .waiting else if interrupted then .interrupted else .none

/-- `class TimeData` (src/helics/core/TimeDependencies.hpp:62-96). -/
structure TimeData where
  next : Time := -1
  Te : Time := 0
  minDe : Time := 0
  TeAlt : Time := 0
  lastGrant : Time := 0
  minFed : FedId := invalidFed
  minFedActual : FedId := invalidFed
  state : TimeState := .initialized
  hasData : Bool := false
  interrupted : Bool := false
  delayedTiming : Bool := false
  timingVersion : Int := -2
  restrictionLevel : Nat := 0
  timeoutCount : Int := 0
  sequenceCounter : Int := 0
  responseSequenceCounter : Int := 0
  grantedIteration : Int := 0
  deriving DecidableEq, Repr, Inhabited

/-- `TimeData(Time start, TimeState startState, uint8_t resLevel)`
(src/helics/core/TimeDependencies.hpp:87-92). -/
def TimeData.ofStart (start : Time) (st : TimeState := .initialized) (res : Nat := 0) : TimeData :=
  { next := start, Te := start, minDe := start, TeAlt := start, state := st, restrictionLevel := res }

/-- `class DependencyInfo` (src/helics/core/TimeDependencies.hpp:99-127). -/
structure DepInfo extends TimeData where
  fedID : FedId := invalidFed
  cyclic : Bool := false
  connection : Conn := .independent
  dependent : Bool := false
  dependency : Bool := false
  forwarding : Bool := false
  nonGranting : Bool := false
  triggered : Bool := false
  updateRequested : Bool := false
  deriving DecidableEq, Repr, Inhabited

/-- `explicit DependencyInfo(GlobalFederateId id)` (src/helics/core/TimeDependencies.hpp:119). -/
def DepInfo.ofId (g : FedId) : DepInfo := { fedID := g, forwarding := FedId.isBroker g }

/-- Conversion of an integer to `int8_t` through `uint8_t`
(src/helics/core/TimeDependencies.cpp:152). -/
def toI8 (x : Int) : Int := let u := x % 256; if u ≥ 128 then u - 256 else u

/-- static `processMessage` (src/helics/core/TimeDependencies.cpp:21-177). -/
def DepInfo.process (cmd : Msg) (dep : DepInfo) : DepInfo × TPR :=
  match cmd.action with
  | .execRequest =>
    let st := if cmd.iterationRequested then
        (if cmd.required then TimeState.execReqRequireIter else .execReqIter)
      else .execReq
    let res := if cmd.delayedTiming && !dep.delayedTiming then TPR.processedAndCheck else .processed
    let rsc := if dep.connection = .self then cmd.counter else cmd.extraDestData
    ({ dep with
        state := st, delayedTiming := cmd.delayedTiming
        restrictionLevel := (cmd.messageID % 256).toNat
        sequenceCounter := cmd.counter
        minFed := cmd.extraData
        responseSequenceCounter := rsc
        updateRequested := if rsc = dep.grantedIteration then false else dep.updateRequested }, res)
  | .execGrant =>
    if !cmd.iterationRequested then
      ({ dep with
          state := .granted, next := 0, minDe := 0, timeoutCount := 0, Te := 0
          sequenceCounter := 0, responseSequenceCounter := 0, grantedIteration := 0
          restrictionLevel := 0, minFed := invalidFed, hasData := false }, .processed)
    else
      ({ dep with
          state := .initialized, sequenceCounter := cmd.counter, responseSequenceCounter := 0
          restrictionLevel := 0, hasData := false }, .processed)
  | .timeRequest =>
    let res0 := if dep.state = .granted then TPR.processedNewRequest else .processed
    let lg := if dep.state = .granted then dep.next else dep.lastGrant
    let st := if cmd.iterationRequested then
        (if cmd.required then TimeState.timeReqRequireIter else .timeReqIter)
      else .timeReq
    let res := if cmd.delayedTiming && !dep.delayedTiming then TPR.processedAndCheck else res0
    let rsc := if dep.connection = .self then cmd.counter else cmd.extraDestData
    ({ dep with
        lastGrant := lg, state := st
        next := cmd.actionTime, Te := cmd.Te
        minDe := if cmd.Te < cmd.Tdemin then cmd.Te else cmd.Tdemin
        minFed := cmd.extraData, interrupted := cmd.interrupted
        nonGranting := if cmd.nonGranting then true else dep.nonGranting
        delayedTiming := if cmd.delayedTiming then true else dep.delayedTiming
        triggered := cmd.destinationTarget
        sequenceCounter := cmd.counter, responseSequenceCounter := rsc
        updateRequested := if rsc = dep.grantedIteration then false else dep.updateRequested }, res)
  | .timeGrant =>
    ({ dep with
        state := .granted, next := cmd.actionTime, Te := cmd.actionTime, minDe := cmd.actionTime
        minFed := invalidFed, timeoutCount := 0, interrupted := false
        sequenceCounter := cmd.counter, hasData := false }, .processed)
  | .disconnect | .priorityDisconnect | .broadcastDisconnect | .disconnectCore
  | .disconnectBroker | .disconnectFed =>
    ({ dep with
        state := .granted, next := maxVal, Te := maxVal, minDe := maxVal
        minFed := invalidFed, timeoutCount := 0, hasData := false, updateRequested := false },
      .processed)
  | .timingInfo =>
    ({ dep with
        nonGranting := cmd.nonGranting, delayedTiming := cmd.delayedTiming
        timingVersion := toI8 cmd.extraData }, .processedAndCheck)
  | .localError | .globalError =>
    ({ dep with
        state := .error, next := maxVal, Te := maxVal, minDe := maxVal
        minFed := invalidFed, timeoutCount := 0 }, .processed)
  | .sendMessage | .pub => ({ dep with hasData := true }, .processed)
  | .requestCurrentTime => ({ dep with sequenceCounter := cmd.counter }, .processed)
  | _ => (dep, .notProcessed)

/-- `TimeData::update` (src/helics/core/TimeDependencies.cpp:179-228). -/
def TimeData.update (t u : TimeData) : TimeData × Bool :=
  ({ t with
      state := u.state, next := u.next, Te := u.Te, minDe := u.minDe, TeAlt := u.TeAlt
      minFed := u.minFed, sequenceCounter := u.sequenceCounter, interrupted := u.interrupted
      responseSequenceCounter := u.responseSequenceCounter, minFedActual := u.minFedActual },
   t.state != u.state || t.Te != u.Te || t.minDe != u.minDe || t.TeAlt != u.TeAlt ||
   t.next != u.next || t.minFed != u.minFed || t.interrupted != u.interrupted ||
   t.responseSequenceCounter != u.responseSequenceCounter || t.minFedActual != u.minFedActual)

/-- The `std::vector<DependencyInfo>` of `TimeDependencies`
(src/helics/core/TimeDependencies.hpp:130-133). -/
abbrev Deps := List DepInfo

namespace Deps

/-- Elements before the `std::lower_bound` position with `dependencyCompare`
(src/helics/core/TimeDependencies.cpp:316-326).  Simplification: binary search is modelled by the linear
scan it agrees with on a sorted vector; sortedness is an invariant proved in the property files. -/
def before (ds : Deps) (g : FedId) : Deps := ds.takeWhile (fun d => decide (d.fedID < g))
/-- Elements from the `std::lower_bound` position on (src/helics/core/TimeDependencies.cpp:316-326). -/
def fromLB (ds : Deps) (g : FedId) : Deps := ds.dropWhile (fun d => decide (d.fedID < g))

/-- `getDependencyInfo` (src/helics/core/TimeDependencies.cpp:347-355). -/
def find (ds : Deps) (g : FedId) : Option DepInfo :=
  match fromLB ds g with
  | [] => none
  | d :: _ => if d.fedID = g then some d else none

/-- `isDependency` (src/helics/core/TimeDependencies.cpp:319-326). -/
def isDependency (ds : Deps) (g : FedId) : Bool :=
  match fromLB ds g with
  | [] => false
  | d :: _ => if d.fedID = g then d.dependency else false

/-- `isDependent` (src/helics/core/TimeDependencies.cpp:328-335). -/
def isDependent (ds : Deps) (g : FedId) : Bool :=
  match fromLB ds g with
  | [] => false
  | d :: _ => if d.fedID = g then d.dependent else false

/-- `addDependency` (src/helics/core/TimeDependencies.cpp:357-386). -/
def addDependency (ds : Deps) (g : FedId) : Deps × Bool :=
  match fromLB ds g with
  | [] => (ds ++ [{ DepInfo.ofId g with dependency := true }], true)
  | d :: rest =>
    if d.fedID = g then
      if d.next > cTerm then
        (before ds g ++ { d with dependency := true, next := -1, lastGrant := 0,
                                 state := .initialized } :: rest, true)
      else (before ds g ++ { d with dependency := true } :: rest, !d.dependency)
    else (before ds g ++ { DepInfo.ofId g with dependency := true } :: d :: rest, true)

/-- `removeDependency` (src/helics/core/TimeDependencies.cpp:388-399). -/
def removeDependency (ds : Deps) (g : FedId) : Deps :=
  match fromLB ds g with
  | [] => ds
  | d :: rest =>
    if d.fedID = g then
      if !d.dependent then before ds g ++ rest
      else before ds g ++ { d with dependency := false } :: rest
    else ds

/-- `addDependent` (src/helics/core/TimeDependencies.cpp:401-424). -/
def addDependent (ds : Deps) (g : FedId) : Deps × Bool :=
  match fromLB ds g with
  | [] => (ds ++ [{ DepInfo.ofId g with dependent := true }], true)
  | d :: rest =>
    if d.fedID = g then (before ds g ++ { d with dependent := true } :: rest, !d.dependent)
    else (before ds g ++ { DepInfo.ofId g with dependent := true } :: d :: rest, true)

/-- `removeDependent` (src/helics/core/TimeDependencies.cpp:426-437). -/
def removeDependent (ds : Deps) (g : FedId) : Deps :=
  match fromLB ds g with
  | [] => ds
  | d :: rest =>
    if d.fedID = g then
      if !d.dependency then before ds g ++ rest
      else before ds g ++ { d with dependent := false } :: rest
    else ds

/-- `resetDependency` (src/helics/core/TimeDependencies.cpp:439-449). -/
def resetDependency (ds : Deps) (g : FedId) : Deps :=
  match fromLB ds g with
  | [] => ds
  | d :: rest =>
    if d.fedID = g then
      if d.state = .granted ∧ d.lastGrant ≥ cTerm then before ds g ++ DepInfo.ofId d.fedID :: rest
      else ds
    else ds

/-- `removeInterdependence` (src/helics/core/TimeDependencies.cpp:451-459). -/
def removeInterdependence (ds : Deps) (g : FedId) : Deps :=
  match fromLB ds g with
  | [] => ds
  | d :: rest => if d.fedID = g then before ds g ++ rest else ds

/-- Write through the pointer returned by `getDependencyInfo`
(src/helics/core/TimeDependencies.cpp:347-355). -/
def modify (ds : Deps) (g : FedId) (f : DepInfo → DepInfo) : Deps :=
  match fromLB ds g with
  | [] => ds
  | d :: rest => if d.fedID = g then before ds g ++ f d :: rest else ds

/-- `updateTime` (src/helics/core/TimeDependencies.cpp:461-468). -/
def updateTime (ds : Deps) (cmd : Msg) : Deps × TPR :=
  match find ds cmd.source with
  | none => (ds, .notProcessed)
  | some d =>
    if !d.dependency then (ds, .notProcessed)
    else (modify ds cmd.source (fun d => (d.process cmd).1), (d.process cmd).2)

/-- `checkIfAllDependenciesArePastExec` (src/helics/core/TimeDependencies.cpp:470-485). -/
def allPastExec (ds : Deps) (iterating : Bool) : Bool :=
  let minstate := if iterating then TimeState.timeReqRequireIter else .timeReq
  ds.all fun d => !d.dependency || d.connection == .self || decide (minstate.rank ≤ d.state.rank) ||
    (d.state == .granted && decide (d.next > 0))

/-- `iteratingWaitingDependencyCheck` (src/helics/core/TimeDependencies.cpp:487-507). -/
def iterWaitingCheck (d : DepInfo) : Bool :=
  if !d.dependency then true
  else if d.connection = .self then true
  else if d.state = .initialized && d.grantedIteration == 0 then false
  else if (d.state = .execReqIter ∨ d.state = .execReqRequireIter) ∧ d.sequenceCounter < d.grantedIteration
    then false
  else true

/-- `checkIfReadyForExecEntry` (src/helics/core/TimeDependencies.cpp:509-530). -/
def readyForExecEntry (ds : Deps) (iterating waiting : Bool) : Bool :=
  if iterating then
    if waiting then ds.all iterWaitingCheck
    else ds.all fun d => !(d.dependency && d.state == .initialized)
  else if waiting then allPastExec ds false
  else ds.all fun d => !(d.dependency && !(decide (TimeState.execReq.rank ≤ d.state.rank) ||
      (d.connection == .self && decide (TimeState.initialized.rank ≤ d.state.rank))))

/-- `iteratingTimeGrantCheck` (src/helics/core/TimeDependencies.cpp:532-557). -/
def iterGrantCheck (t : Time) (mode : DelayMode) (d : DepInfo) : Bool :=
  if !d.dependency || decide (d.next ≥ cTerm) then true
  else if d.connection = .self then true
  else if d.next < t then false
  else if d.next = t ∧ d.state = .granted then false
  else if mode = .waiting ∧ (d.state = .timeReqIter ∨ d.state = .timeReqRequireIter) ∧
      d.sequenceCounter < d.grantedIteration then false
  else true

/-- One iteration of the three `for` loops of `checkIfReadyForTimeGrant`
(src/helics/core/TimeDependencies.cpp:570-631): `false` means the loop returns `false`. -/
def grantCheck (t : Time) (mode : DelayMode) (d : DepInfo) : Bool :=
  if !d.dependency || decide (d.next ≥ cTerm) then true
  else if d.connection = .self then true
  else match mode with
  | .none =>
    if d.next < t then false
    else if d.next = t then
      if d.state = .granted then false
      else if d.state = .timeReq ∧ d.nonGranting then false
      else true
    else true
  | .interrupted =>
    if d.next < t then false
    else if d.next = t then
      if d.state = .granted then false
      else if d.state = .timeReq ∧ d.nonGranting then false
      else if d.interrupted || d.delayedTiming then true
      else false
    else true
  | .waiting => if d.next ≤ t then false else true

/-- `checkIfReadyForTimeGrant` (src/helics/core/TimeDependencies.cpp:559-634). -/
def readyForTimeGrant (ds : Deps) (iterating : Bool) (t : Time) (mode : DelayMode) : Bool :=
  if iterating then ds.all (iterGrantCheck t mode) else ds.all (grantCheck t mode)

/-- The predicate shared by `hasActiveTimeDependencies`, `activeDependencyCount` and `getMinDependency`
(src/helics/core/TimeDependencies.cpp:636-671). -/
def active (d : DepInfo) : Bool := d.dependency && FedId.isFederate d.fedID && decide (d.next < cTerm)

/-- `hasActiveTimeDependencies` (src/helics/core/TimeDependencies.cpp:636-641). -/
def hasActive (ds : Deps) : Bool := ds.any active
/-- `activeDependencyCount` (src/helics/core/TimeDependencies.cpp:651-656). -/
def activeCount (ds : Deps) : Nat := ds.countP active
/-- `getMinDependency` (src/helics/core/TimeDependencies.cpp:658-671). -/
def getMinDependency (ds : Deps) : FedId :=
  (ds.foldl (fun (acc : FedId × Time) d =>
    if active d then (if d.next < acc.2 then (d.fedID, d.next) else acc) else acc)
    (invalidFed, maxVal)).1

/-- `checkSequenceCounter` (src/helics/core/TimeDependencies.hpp:218-222). -/
def checkSeq (d : DepInfo) (tmin : Time) (sq : Int) : Bool :=
  !d.dependency || !d.dependent || decide (d.timingVersion ≤ 0) || decide (d.next > tmin) ||
    decide (d.next ≥ cTerm) || d.responseSequenceCounter == sq
/-- `verifySequenceCounter` (src/helics/core/TimeDependencies.cpp:643-650). -/
def verifySeq (ds : Deps) (tmin : Time) (sq : Int) : Bool := ds.all fun d => checkSeq d tmin sq

/-- `resetIteratingExecRequests` (src/helics/core/TimeDependencies.cpp:673-685). -/
def resetIterExec (ds : Deps) : Deps := ds.map fun d =>
  if d.dependency && decide (d.state.rank ≤ TimeState.execReqIter.rank) then
    { d with state := .initialized, grantedIteration := d.sequenceCounter, sequenceCounter := 0
             responseSequenceCounter := 0, restrictionLevel := 0, minFed := invalidFed }
  else d

/-- `resetIteratingTimeRequests` (src/helics/core/TimeDependencies.cpp:687-698). -/
def resetIterTime (ds : Deps) (t : Time) : Deps := ds.map fun d =>
  if d.dependency && d.state == .timeReqIter && d.next == t then
    { d with state := .granted, Te := t, minDe := t }
  else d

/-- `resetDependentEvents` (src/helics/core/TimeDependencies.cpp:700-708). -/
def resetEvents (ds : Deps) (g : Time) : Deps := ds.map fun d =>
  if d.dependency then { d with Te := max d.next g, minDe := max d.next g } else d

/-- The condition tested on each entry by `checkForIssues`
(src/helics/core/TimeDependencies.cpp:716-717). -/
def delayedMutual (d : DepInfo) : Bool :=
  d.dependency && d.dependent && d.delayedTiming && d.connection != .self

/-- `checkForIssues` (src/helics/core/TimeDependencies.cpp:710-728): `true` means the
`multiple_wait_for_current_time_flags` error is returned. -/
def checkForIssues (ds : Deps) (waiting : Bool) : Bool :=
  (ds.foldl (fun (acc : Bool × Bool) d =>   -- (hasDelayedTiming, error found)
    if acc.2 then acc
    else if delayedMutual d then (if acc.1 then (acc.1, true) else (true, false))
    else acc) (waiting, false)).2

/-- The exec-mode part of `generateMinTimeImplementation`
(src/helics/core/TimeDependencies.cpp:739-774). -/
def minTimeExec (m : TimeData) (dep : DepInfo) : TimeData :=
  let m :=
    if dep.state.rank < m.state.rank then
      { m with
        minFed := dep.fedID, state := dep.state, delayedTiming := dep.delayedTiming
        restrictionLevel := dep.restrictionLevel, sequenceCounter := dep.sequenceCounter
        responseSequenceCounter := dep.responseSequenceCounter, interrupted := dep.interrupted }
    else if dep.state = m.state then
      if dep.restrictionLevel < m.restrictionLevel then
        { m with
          minFed := dep.fedID, delayedTiming := dep.delayedTiming
          restrictionLevel := dep.restrictionLevel, sequenceCounter := dep.sequenceCounter
          responseSequenceCounter := dep.sequenceCounter, interrupted := dep.interrupted }
      else if dep.restrictionLevel = m.restrictionLevel ∧ dep.interrupted ≠ m.interrupted then
        if !dep.interrupted then
          { m with
            minFed := dep.fedID, delayedTiming := dep.delayedTiming
            restrictionLevel := dep.restrictionLevel, sequenceCounter := dep.sequenceCounter
            responseSequenceCounter := dep.sequenceCounter, interrupted := false }
        else m
      else if dep.restrictionLevel = m.restrictionLevel ∧ dep.fedID < m.minFed then
        { m with
          minFed := dep.fedID, delayedTiming := dep.delayedTiming
          sequenceCounter := dep.sequenceCounter, responseSequenceCounter := dep.sequenceCounter }
      else m
    else m
  { m with next := initializationTime, Te := 0, minDe := 0 }

/-- `iterativeRequest` lambda (src/helics/core/TimeDependencies.cpp:818-821). -/
def iterativeRequest (s : TimeState) : Bool := s == .timeReqIter || s == .timeReqRequireIter

/-- The `minDe` accumulation of `generateMinTimeImplementation`
(src/helics/core/TimeDependencies.cpp:788-808). -/
def minTimeMinDe (mMinDe : Time) (dep : DepInfo) (seqCode : Int) : Time :=
  if dep.connection ≠ .self ∧ (seqCode = 0 ∨ dep.responseSequenceCounter = seqCode ∨
      dep.timingVersion = 0 ∨ dep.dependent = false) then
    if dep.minDe ≥ dep.next then (if dep.minDe < mMinDe then dep.minDe else mMinDe)
    else minusOneSecond
  else if dep.responseSequenceCounter = seqCode ∧ dep.dependent then
    if dep.minDe ≥ dep.next ∧ dep.minDe < mMinDe then dep.minDe else mMinDe
  else if dep.next < mMinDe then dep.next else mMinDe

/-- The `next`/`mTimeState`/`interrupted` accumulation of `generateMinTimeImplementation`
(src/helics/core/TimeDependencies.cpp:809-835). -/
def minTimeNext (m : TimeData) (dep : DepInfo) (seqCode : Int) : TimeData :=
  if dep.next < m.next then
    { m with
      next := dep.next, state := dep.state
      interrupted := if dep.responseSequenceCounter = seqCode ∧ dep.dependent then dep.interrupted
                     else false }
  else if dep.next = m.next then
    let st :=
      if iterativeRequest dep.state then
        if !iterativeRequest m.state || decide (dep.state.rank < m.state.rank) then dep.state
        else m.state
      else if dep.state = .granted ∧ !iterativeRequest m.state then dep.state
      else m.state
    { m with
      state := st
      interrupted := if dep.state = .granted ∨ !dep.interrupted then false else m.interrupted }
  else m

/-- The `Te`/`TeAlt`/`minFed` accumulation of `generateMinTimeImplementation`
(src/helics/core/TimeDependencies.cpp:837-852). -/
def minTimeTe (m : TimeData) (dep : DepInfo) : TimeData :=
  if dep.Te < m.Te then
    { m with
      TeAlt := m.Te, Te := dep.Te, minFed := dep.fedID
      sequenceCounter := dep.sequenceCounter, responseSequenceCounter := dep.sequenceCounter
      minFedActual := if FedId.isValid dep.minFed then dep.minFed else m.minFedActual }
  else if dep.Te = m.Te then { m with minFed := invalidFed, TeAlt := m.Te }
  else m

/-- `generateMinTimeImplementation` (src/helics/core/TimeDependencies.cpp:730-854). -/
def minTimeImpl (ignore : FedId) (seqCode : Int) (m : TimeData) (dep : DepInfo) : TimeData :=
  if dep.state.rank < TimeState.granted.rank then
    if dep.fedID = ignore then m else minTimeExec m dep
  else if dep.fedID = ignore then
    if FedId.isBroker dep.fedID ∧ dep.Te < m.minDe then { m with minDe := dep.Te } else m
  else
    minTimeTe (minTimeNext { m with minDe := minTimeMinDe m.minDe dep seqCode } dep seqCode) dep

/-- `getExecEntryMinFederate` (src/helics/core/TimeDependencies.cpp:856-895).  Simplification: the `break`
is modelled by a "stopped" marker carried through the fold. -/
def execEntryMinFed (ds : Deps) (self : FedId) (ignoreType : Conn := .none)
    (ignore : FedId := invalidFed) : DepInfo :=
  let maxDep : DepInfo := { toTimeData := TimeData.ofStart maxVal .initialized 50 }
  (ds.foldl (fun (acc : DepInfo × Bool) dep =>
    if acc.2 then acc
    else if !dep.dependency then acc
    else if dep.fedID = ignore then acc
    else if dep.connection = .self ∨ dep.connection = ignoreType then acc
    else if FedId.isValid self ∧ dep.minFedActual = self then acc
    else if dep.state.rank > TimeState.execReqIter.rank then acc
    else if dep.restrictionLevel > acc.1.restrictionLevel then acc
    else if !FedId.isValid acc.1.fedID || decide (dep.fedID < acc.1.fedID) then
      if dep.state = .initialized then (maxDep, true) else (dep, false)
    else acc) (maxDep, false)).1

/-- Common tail of the three `generateMinTime*` functions
(src/helics/core/TimeDependencies.cpp:918-926,955-963,996-1004). -/
def minTimeFinish (m : TimeData) (restricted : Bool) : TimeData :=
  let m := if m.Te < m.minDe then { m with minDe := m.Te } else m
  if !restricted then (if m.minDe > m.next then { m with next := m.minDe } else m) else m

/-- Reset to the initialization time when some dependency is not yet executing
(src/helics/core/TimeDependencies.cpp:928-932,964-967,1005-1009). -/
def minTimeInit (m : TimeData) : TimeData :=
  if m.state.rank < TimeState.granted.rank then
    { m with next := initializationTime, minDe := initializationTime, Te := initializationTime }
  else m

/-- `generateMinTimeTotal` (src/helics/core/TimeDependencies.cpp:978-1011). -/
def minTimeTotal (ds : Deps) (restricted : Bool) (self ignore : FedId) (code : Int) : TimeData :=
  minTimeInit (minTimeFinish
    (ds.foldl (fun m dep =>
      if !dep.dependency then m
      else if FedId.isValid self ∧ dep.minFedActual = self then m
      else minTimeImpl ignore code m dep) (TimeData.ofStart maxVal .error)) restricted)

/-- `generateMinTimeUpstream` (src/helics/core/TimeDependencies.cpp:897-934). -/
def minTimeUpstream (ds : Deps) (restricted : Bool) (self ignore : FedId) (code : Int) : TimeData :=
  let r := ds.foldl (fun (acc : TimeData × Int) dep =>
      if !dep.dependency then acc
      else if dep.connection = .parent then acc
      else if FedId.isValid self ∧ dep.minFedActual = self then acc
      else (minTimeImpl ignore code acc.1 dep, acc.2 + dep.sequenceCounter))
    (TimeData.ofStart maxVal .error, 0)
  minTimeInit { minTimeFinish r.1 restricted with sequenceCounter := r.2 }

/-- `generateMinTimeDownstream` (src/helics/core/TimeDependencies.cpp:936-976). -/
def minTimeDownstream (ds : Deps) (restricted : Bool) (self ignore : FedId) (code : Int) : TimeData :=
  let m := minTimeInit (minTimeFinish
    (ds.foldl (fun m dep =>
      if !dep.dependency then m
      else if dep.connection ≠ .parent then m
      else if FedId.isValid self ∧ dep.minFedActual = self then m
      else minTimeImpl ignore code m dep) (TimeData.ofStart maxVal .error)) restricted)
  if m.state.rank < TimeState.execReq.rank then
    { m with minFed := (execEntryMinFed ds self .child ignore).fedID }
  else m

end Deps
end Verif
