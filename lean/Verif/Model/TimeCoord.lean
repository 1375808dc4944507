import Verif.Model.Deps
/-!
# `TimeCoordinator` (and the parts of `BaseTimeCoordinator` it inherits)

Models src/helics/core/TimeCoordinator.{hpp,cpp} and src/helics/core/BaseTimeCoordinator.{hpp,cpp}.
Calls of `sendMessageFunction` append to the `out` list.  The thread-safe duplicate lists
`dependent_federates`/`dependency_federates`, JSON output and timers are not modelled.
A null-pointer dereference sets `ub`.
-/
namespace Verif

/-- `class tcoptions` (src/helics/core/TimeCoordinator.hpp:23-42). -/
structure TCOptions where
  timeDelta : Time := 1
  inputDelay : Time := 0
  outputDelay : Time := 0
  offset : Time := 0
  period : Time := 0
  waitForCurrent : Bool := false
  uninterruptible : Bool := false
  restrictive : Bool := false
  eventTriggered : Bool := false
  maxIterations : Int := 50
  deriving DecidableEq, Repr, Inhabited

/-- What is handed to `sendMessageFunction`: one message, or a `CMD_MULTI_MESSAGE` holding several
(src/helics/core/BaseTimeCoordinator.cpp:103-121). -/
inductive Packet
  | single (m : Msg)
  | multi (ms : List Msg)
  deriving DecidableEq, Repr, Inhabited

/-- `class TimeCoordinator` data members (src/helics/core/TimeCoordinator.hpp:48-88) with those of
`BaseTimeCoordinator` (src/helics/core/BaseTimeCoordinator.hpp:26-50). -/
structure TC where
  self : FedId := 0
  deps : Deps := []
  seq : Int := 0                       -- sequenceCounter
  checkingExec : Bool := false
  executionMode : Bool := false
  nonGranting : Bool := false
  delayedTiming : Bool := false
  disconnected : Bool := false
  upstream : TimeData := {}
  total : TimeData := {}
  lastSend : TimeData := {}
  granted : Time := minVal             -- time_granted
  requested : Time := maxVal           -- time_requested
  next : Time := 0                     -- time_next
  minminDe : Time := 0
  minDe : Time := 0
  allow : Time := minVal
  exec : Time := maxVal                -- time_exec
  message : Time := maxVal
  value : Time := maxVal
  grantBase : Time := minVal
  block : Time := maxVal               -- time_block
  maxTime : Time := maxVal
  timeBlocks : List (Time × Int) := []
  info : TCOptions := {}
  restrictionLevel : Nat := 0
  iterating : IterReq := .noIterations
  hasInitUpdates : Bool := false
  hasIterationData : Bool := false
  needSendAll : Bool := false
  triggered : Bool := false
  globalTime : Bool := false
  dynamicJoining : Bool := false
  iteration : Int := 0
  out : List Packet := []
  ub : Bool := false
  deriving DecidableEq, Repr, Inhabited

namespace TC

/-- `sendMessageFunction(msg)` (src/helics/core/BaseTimeCoordinator.hpp:31). -/
def send (tc : TC) (m : Msg) : TC := { tc with out := tc.out ++ [.single m] }

/-- `ceil(a / p)` for `p > 0`.  Simplification: the code computes this in `double`
(src/helics/core/TimeCoordinator.cpp:511); here it is exact. -/
def ceilDiv (a p : Int) : Int := -((-a) / p)

/-- `generateAllowedTime` (src/helics/core/TimeCoordinator.cpp:497-518). -/
def allowedTime (info : TCOptions) (grantBase : Time) (t : Time) : Time :=
  if info.period > timeEpsilon then
    if t ≥ cTerm then t
    else if grantBase < info.offset ∧ t ≤ info.offset then info.offset
    else
      let base := if grantBase < info.offset then info.offset else grantBase
      if t - base > info.period then base + ceilDiv (t - base) info.period * info.period
      else base + info.period
  else t

/-- The `while (retTime < timeDelta) retTime += period` loop
(src/helics/core/TimeCoordinator.cpp:486-488); `fuel` bounds the number of rounds and is chosen large
enough by the caller. -/
def stepLoop (period delta : Time) : Nat → Time → Time
  | 0, r => r
  | n + 1, r => if r < delta then stepLoop period delta n (r + period) else r

/-- `getNextPossibleTime` (src/helics/core/TimeCoordinator.cpp:473-495). -/
def nextPossible (info : TCOptions) (granted grantBase : Time) : Time :=
  if granted = 0 then
    if info.offset > info.timeDelta then info.offset
    else if info.offset = 0 then allowedTime info grantBase (max info.timeDelta info.period)
    else if info.period ≤ timeEpsilon then info.timeDelta
    else
      let r := info.offset + info.period
      stepLoop info.period info.timeDelta (info.timeDelta - r).toNat r
  else if grantBase ≥ cTerm - max info.timeDelta info.period then maxVal
  else allowedTime info grantBase (grantBase + max info.timeDelta info.period)

/-- `generateAllowedTime` as a method (src/helics/core/TimeCoordinator.cpp:497-518). -/
def generateAllowedTime (tc : TC) (t : Time) : Time := allowedTime tc.info tc.grantBase t
/-- `getNextPossibleTime` as a method (src/helics/core/TimeCoordinator.cpp:473-495). -/
def getNextPossibleTime (tc : TC) : Time := nextPossible tc.info tc.granted tc.grantBase

/-- The value computed by `updateNextExecutionTime` (src/helics/core/TimeCoordinator.cpp:272-306). -/
def nextExec (tc : TC) : Time :=
  if tc.info.uninterruptible then
    if tc.iterating = .noIterations then tc.generateAllowedTime tc.requested
    else
      let e := min tc.message tc.value
      let e := if e < cTerm then e + tc.info.inputDelay else e
      if e ≤ tc.granted then tc.granted else tc.generateAllowedTime tc.requested
  else
    let e := min tc.message tc.value
    let e := if e < cTerm then e + tc.info.inputDelay else e
    let e := min tc.requested e
    let e := if e ≤ tc.granted then
        (if tc.iterating = .noIterations then tc.getNextPossibleTime else tc.granted)
      else e
    if tc.granted < cTerm then (if e > tc.granted then tc.generateAllowedTime e else e)
    else tc.generateAllowedTime e

/-- `updateNextExecutionTime` (src/helics/core/TimeCoordinator.cpp:272-306). -/
def updateNextExecutionTime (tc : TC) : TC × Bool :=
  ({ tc with exec := tc.nextExec }, tc.nextExec != tc.exec)

/-- The value computed by `updateNextPossibleEventTime`
(src/helics/core/TimeCoordinator.cpp:308-333). -/
def nextEvent (tc : TC) : Time :=
  let n0 := if tc.iterating = .noIterations then tc.getNextPossibleTime else tc.granted
  if tc.info.uninterruptible then
    if tc.iterating = .noIterations then tc.generateAllowedTime tc.requested + tc.info.outputDelay
    else
      let n := if tc.minminDe < cTerm ∧ !tc.info.restrictive ∧ tc.minminDe + tc.info.inputDelay > n0
        then tc.generateAllowedTime tc.requested else n0
      min n tc.exec + tc.info.outputDelay
  else
    let n := if tc.minminDe < cTerm ∧ !tc.info.restrictive ∧ tc.minminDe + tc.info.inputDelay > n0
      then tc.generateAllowedTime (tc.minminDe + tc.info.inputDelay) else n0
    min n tc.exec + tc.info.outputDelay

/-- `updateNextPossibleEventTime` (src/helics/core/TimeCoordinator.cpp:308-333). -/
def updateNextPossibleEventTime (tc : TC) : TC := { tc with next := tc.nextEvent }

/-- The predicate `!globalTime && (event_triggered || time_requested >= cTerminationTime)`
(src/helics/core/TimeCoordinator.cpp:589,879,887,916). -/
def evTriggered (tc : TC) : Bool :=
  !tc.globalTime && (tc.info.eventTriggered || decide (tc.requested ≥ cTerm))

/-- The first half of `updateTimeFactors`: the aggregates
(src/helics/core/TimeCoordinator.cpp:556-573). -/
def updateAggregates (tc : TC) : TC :=
  let restricted := tc.info.restrictive || tc.globalTime
  let total := Deps.minTimeTotal tc.deps restricted invalidFed invalidFed tc.seq
  let up := Deps.minTimeUpstream tc.deps restricted invalidFed invalidFed tc.seq
  let up := if tc.globalTime && tc.deps.length == 1 then { total with minFed := invalidFed } else up
  { tc with
    total := total, upstream := up
    maxTime := cTerm - tc.info.outputDelay - max tc.info.period tc.info.timeDelta
    minminDe := total.minDe }

/-- `updateTimeFactors` (src/helics/core/TimeCoordinator.cpp:554-602).  The returned Boolean of the C++
function is not used by any caller in this class and is dropped. -/
def updateTimeFactors (tc : TC) : TC :=
  let tc := tc.updateAggregates
  let tc := tc.updateNextPossibleEventTime
  let tmin := if tc.total.minDe < tc.maxTime then
      tc.generateAllowedTime tc.total.minDe + tc.info.outputDelay else tc.total.minDe
  let umin := if tc.upstream.minDe < tc.maxTime ∧ tc.upstream.minDe > tmin then
      tc.generateAllowedTime tc.upstream.minDe + tc.info.outputDelay else tc.upstream.minDe
  let uTe := if tc.evTriggered ∧ tc.upstream.Te < tc.maxTime then tc.generateAllowedTime umin
    else tc.upstream.Te
  let tc := { tc with
    total := { tc.total with minDe := tmin }
    upstream := { tc.upstream with minDe := umin, Te := uTe }
    minDe := tmin
    allow := if tc.total.next < tc.maxTime then tc.info.inputDelay + tc.total.next else maxVal }
  tc.updateNextExecutionTime.1

/-- static `checkAdd` (src/helics/core/TimeCoordinator.cpp:859-862). -/
def checkAdd (val inc : Time) : Time := if val < maxVal - inc then val + inc else maxVal

/-- The loop of `transmitTimingMessages` (src/helics/core/TimeCoordinator.cpp:1022-1039): the copies sent. -/
def timingCopies (ds : Deps) (m : Msg) (skip : FedId) : List Packet :=
  ds.filterMap fun d =>
    if d.dependent && d.fedID != skip then
      some (.single (if m.action = .execRequest ∨ m.action = .timeRequest then
        { m with dest := d.fedID, extraDestData := d.sequenceCounter }
        else { m with dest := d.fedID }))
    else none

/-- `transmitTimingMessages` (src/helics/core/TimeCoordinator.cpp:1022-1039); the Boolean is `skipped`. -/
def transmit (tc : TC) (m : Msg) (skip : FedId := invalidFed) : TC × Bool :=
  ({ tc with out := tc.out ++ timingCopies tc.deps m skip },
   tc.deps.any fun d => d.dependent && d.fedID == skip)

/-- The `CMD_TIME_REQUEST` built by `sendTimeRequest` (src/helics/core/TimeCoordinator.cpp:864-935). -/
def mkTimeRequest (tc : TC) : Msg :=
  let od := tc.info.outputDelay
  let ev := tc.evTriggered
  let te0 := checkAdd tc.exec od
  let te1 := if ev then max 0 (min te0 (checkAdd tc.upstream.Te od)) else te0
  let a1 := if ev then min tc.next te1 else tc.next
  let d0 := min (checkAdd tc.upstream.Te od) te1
  let d1 := if ev then max 0 (min d0 (checkAdd tc.upstream.minDe od)) else d0
  let a2 := if ev ∧ d1 < a1 then d1 else a1
  let d2 := if d1 < a2 then a2 else d1
  let m : Msg := {
    action := .timeRequest, source := tc.self, actionTime := a2, counter := toU16 tc.seq
    nonGranting := tc.nonGranting, delayedTiming := tc.info.waitForCurrent
    interrupted := !tc.info.waitForCurrent && decide (tc.requested > tc.next)
    Te := te1, Tdemin := d2, extraData := tc.upstream.minFed
    destinationTarget := tc.triggered }
  if tc.iterating ≠ .noIterations then setIterationFlags m tc.iterating else m

/-- The `changed` test of `checkAndSendTimeRequest` (src/helics/core/TimeCoordinator.cpp:821-857). -/
def requestChanged (tc : TC) (upd : Msg) : Bool :=
  tc.lastSend.next != upd.actionTime || tc.lastSend.minDe != upd.Tdemin ||
  tc.lastSend.Te != upd.Te || tc.lastSend.minFed != upd.extraData ||
  tc.lastSend.state != .timeReq || tc.lastSend.sequenceCounter != tc.seq ||
  tc.lastSend.interrupted != upd.interrupted

/-- `checkAndSendTimeRequest` (src/helics/core/TimeCoordinator.cpp:821-857). -/
def checkAndSend (tc : TC) (upd : Msg) (skip : FedId) : TC × Bool × Bool :=
  if tc.requestChanged upd then
    let tc := { tc with lastSend := { tc.lastSend with
      next := upd.actionTime, minDe := upd.Tdemin, Te := upd.Te, sequenceCounter := tc.seq
      minFed := upd.extraData, state := .timeReq, interrupted := upd.interrupted } }
    let r := tc.transmit upd skip
    (r.1, true, r.2)
  else (tc, false, false)

/-- The copy sent to the minimum federate (src/helics/core/TimeCoordinator.cpp:911-922). -/
def minFedRequest (tc : TC) (upd : Msg) : Msg :=
  let od := tc.info.outputDelay
  let te := if tc.evTriggered then min (checkAdd tc.exec od) (checkAdd tc.upstream.TeAlt od) else upd.Te
  { upd with
    dest := tc.upstream.minFed, extraData := invalidFed
    extraDestData := tc.upstream.responseSequenceCounter
    Te := te, Tdemin := min tc.upstream.TeAlt te }

/-- `sendTimeRequest` (src/helics/core/TimeCoordinator.cpp:864-935). -/
def sendTimeRequest (tc : TC) (trigger : FedId) : TC :=
  let upd := tc.mkTimeRequest
  let r := tc.checkAndSend upd tc.upstream.minFed
  if r.2.1 then
    if r.2.2 && FedId.isValid tc.upstream.minFed then r.1.send (tc.minFedRequest upd) else r.1
  else if FedId.isValid trigger then
    match tc.deps.find trigger with
    | none => { tc with ub := true }           -- `dep->dependent` with `dep == nullptr`
    | some d =>
      if d.dependent then tc.send { upd with dest := trigger, extraDestData := d.sequenceCounter }
      else tc
  else tc

/-- The state updates of `timeRequest` before the time factors are recomputed
(src/helics/core/TimeCoordinator.cpp:233-264). -/
def prepRequest (tc : TC) (t : Time) (iter : IterReq) (newValue newMessage : Time) : TC :=
  let np := tc.getNextPossibleTime
  let req := if iter ≠ .noIterations then
      (if t < tc.granted ∨ iter = .forceIteration then tc.granted else t)
    else (if t < np then np else t)
  let next := if iter ≠ .noIterations then tc.next
    else (if tc.info.uninterruptible then tc.generateAllowedTime req else np)
  let floor := if iter ≠ .noIterations then tc.granted else next
  let value := if newValue > floor then newValue else floor
  let message := if newMessage > floor then newMessage else floor
  let e := min value (min message req)
  { tc with
    iterating := iter, requested := req, next := next, value := value, message := message
    exec := if tc.info.uninterruptible ∧ (e > tc.granted ∨ iter = IterReq.noIterations) then req else e
    deps := tc.deps.resetEvents tc.granted, seq := tc.seq + 1 }

/-- `timeRequest` (src/helics/core/TimeCoordinator.cpp:228-270). -/
def timeRequest (tc : TC) (t : Time) (iter : IterReq) (newValue newMessage : Time) : TC :=
  let tc := (tc.prepRequest t iter newValue newMessage).updateTimeFactors
  if tc.deps.isEmpty then tc else tc.sendTimeRequest invalidFed

/-- `updateValueTime` (src/helics/core/TimeCoordinator.cpp:335-367). -/
def updateValueTime (tc : TC) (t : Time) (allowSend : Bool) : TC :=
  if !tc.executionMode then (if t < 0 then { tc with hasInitUpdates := true } else tc)
  else
    let tc := if t ≤ tc.granted then { tc with hasIterationData := true } else tc
    if t < tc.value then
      let ptime := tc.value
      let np := tc.getNextPossibleTime
      let v := if tc.iterating ≠ .noIterations then (if t ≤ tc.granted then tc.granted else t)
        else (if t ≤ np then np else t)
      let tc := { tc with value := v }
      if v < ptime ∧ !tc.disconnected then
        let r := tc.updateNextExecutionTime
        if r.2 && allowSend then r.1.sendTimeRequest invalidFed else r.1
      else tc
    else tc

/-- `updateMessageTime` (src/helics/core/TimeCoordinator.cpp:520-552). -/
def updateMessageTime (tc : TC) (t : Time) (allowSend : Bool) : TC :=
  if !tc.executionMode then (if t < 0 then { tc with hasInitUpdates := true } else tc)
  else
    let tc := if t ≤ tc.granted then { tc with hasIterationData := true } else tc
    if t < tc.message then
      let ptime := tc.message
      let np := tc.getNextPossibleTime
      let v := if tc.iterating ≠ .noIterations then (if t ≤ tc.granted then tc.granted else t)
        else (if t ≤ np then np else t)
      let tc := { tc with message := v }
      if v < ptime ∧ !tc.disconnected then
        let r := tc.updateNextExecutionTime
        if r.2 && allowSend then r.1.sendTimeRequest invalidFed else r.1
      else tc
    else tc

/-- `updateTimeGrant` (src/helics/core/TimeCoordinator.cpp:937-962). -/
def updateTimeGrant (tc : TC) : TC :=
  let tc : TC := if tc.iterating ≠ .forceIteration then { tc with granted := tc.exec, grantBase := tc.exec }
    else tc
  let s := tc.seq + 1
  let treq : Msg := { action := .timeGrant, source := tc.self, actionTime := tc.granted, counter := toU16 s }
  let tc : TC := { tc with seq := if toU16 s ≠ s then 0 else s }
  let tc : TC := if tc.iterating ≠ .noIterations then { tc with deps := tc.deps.resetIterTime tc.exec } else tc
  let tc := { tc with lastSend := { tc.lastSend with
    next := tc.granted, Te := tc.granted, minDe := tc.granted, state := .granted } }
  (tc.transmit treq).1

/-- `TimeCoordinator::removeDependent` (src/helics/core/TimeCoordinator.cpp:1006-1015). -/
def removeDependent (tc : TC) (g : FedId) : TC := { tc with deps := tc.deps.removeDependent g }

/-- `updateTimeBlocks` (src/helics/core/TimeCoordinator.cpp:1359-1375): the new block list. -/
def setBlock : List (Time × Int) → Int → Time → List (Time × Int)
  | [], id, t => [(t, id)]
  | b :: bs, id, t => if b.2 = id then (t, id) :: bs else b :: setBlock bs id t

/-- `std::min_element` over the block list (src/helics/core/TimeCoordinator.cpp:1369-1374). -/
def minBlock : List (Time × Int) → Time
  | [] => maxVal                 -- never reached: the list has just been written to
  | [b] => b.1
  | b :: bs => let m := minBlock bs; if m < b.1 then m else b.1

/-- `processTimeBlockMessage` (src/helics/core/TimeCoordinator.cpp:1377-1400). -/
def processBlock (tc : TC) (cmd : Msg) : TC × TPR :=
  let r : List (Time × Int) × Time :=
    match cmd.action with
    | .timeBlock | .timeBarrier =>
      let bs := setBlock tc.timeBlocks cmd.messageID cmd.actionTime
      (bs, minBlock bs)
    | .timeUnblock | .timeBarrierClear =>
      if tc.timeBlocks.isEmpty then (tc.timeBlocks, maxVal)
      else
        let bs := setBlock tc.timeBlocks cmd.messageID maxVal
        (bs, minBlock bs)
    | _ => (tc.timeBlocks, maxVal)
  ({ tc with timeBlocks := r.1, block := r.2 },
   if r.2 > tc.block then .processed else .notProcessed)

/-- The error report sent when `checkForIssues` finds conflicting flags
(src/helics/core/TimeCoordinator.cpp:1345-1352). -/
def issueError (tc : TC) : Msg := { action := .globalError, dest := parentBroker, source := tc.self }

/-- `BaseTimeCoordinator::generateTimeRequest` (src/helics/core/BaseTimeCoordinator.cpp:306-383). -/
def generateTimeRequest (tc : TC) (dep : TimeData) (fed : FedId) (code : Int) : Msg :=
  let m : Msg := { action := .timeRequest, source := tc.self, dest := fed, actionTime := dep.next
                   interrupted := dep.interrupted }
  let full : Msg := { m with extraData := dep.minFed, Tdemin := min dep.minDe dep.Te, Te := dep.Te,
                             counter := toU16 tc.seq, extraDestData := code }
  match dep.state with
  | .granted => { m with action := .timeGrant }
  | .timeReq => full
  | .timeReqIter => setIterationFlags full .iterateIfNeeded
  | .timeReqRequireIter => setIterationFlags full .forceIteration
  | .execReq => { m with action := .execRequest, actionTime := 0, counter := toU16 tc.seq,
                         extraDestData := code }
  | .error => { m with action := .ignore }
  | .execReqIter =>
    setIterationFlags { m with action := .execRequest, extraData := dep.minFed,
                               counter := toU16 tc.seq, extraDestData := code } .iterateIfNeeded
  | .execReqRequireIter =>
    setIterationFlags { m with action := .execRequest, extraData := dep.minFed,
                               counter := toU16 tc.seq, extraDestData := code } .forceIteration
  | .initialized =>
    if dep.responseSequenceCounter = 0 then { m with action := .ignore }
    else setIterationFlags { m with action := .execGrant, extraData := dep.minFed,
                                    counter := toU16 tc.seq, extraDestData := code } .iterateIfNeeded

/-- The tail of `processTimeMessage`: hand the message to the dependency table and check for conflicts
(src/helics/core/TimeCoordinator.cpp:1342-1357).  The `isDelayableMessage` block before it
(lines 1313-1341) only acts by returning `NOT_PROCESSED` for a grant from an unknown federate, which
`updateTime` also does. -/
def updateDeps (tc : TC) (cmd : Msg) : TC × TPR :=
  let r := tc.deps.updateTime cmd
  let tc := { tc with deps := r.1 }
  if r.2 = .processedAndCheck then
    (if tc.deps.checkForIssues tc.info.waitForCurrent then tc.send tc.issueError else tc, .processed)
  else (tc, r.2)

/-- `TimeCoordinator::processTimeMessage` (src/helics/core/TimeCoordinator.cpp:1257-1357). -/
def processTimeMessage (tc : TC) (cmd : Msg) : TC × TPR :=
  match cmd.action with
  | .timeBlock | .timeUnblock | .timeBarrier | .timeBarrierClear => tc.processBlock cmd
  | .forceTimeGrant =>
    if tc.granted < cmd.actionTime then
      let tc := { tc with
        granted := cmd.actionTime, grantBase := cmd.actionTime
        lastSend := { tc.lastSend with next := cmd.actionTime, Te := cmd.actionTime
                                       minDe := cmd.actionTime, state := .granted } }
      ((tc.transmit { action := .timeGrant, source := tc.self, actionTime := cmd.actionTime }).1, .processed)
    else (tc, .notProcessed)
  | .disconnect | .broadcastDisconnect | .disconnectCore | .disconnectFed | .disconnectBroker
  | .globalError | .localError => (tc.removeDependent cmd.source).updateDeps cmd
  | .requestCurrentTime =>
    if tc.disconnected || tc.lastSend.state == .error then
      (tc.send { action := .disconnect, source := tc.self, dest := cmd.source
                 extraDestData := cmd.counter }, .processed)
    else
      let resp := tc.generateTimeRequest tc.lastSend cmd.source cmd.counter
      let resp := if tc.triggered then { resp with destinationTarget := true } else resp
      let tc := if tc.triggered && cmd.source == rootBroker then { tc with triggered := false } else tc
      let tc := tc.send resp
      ({ tc with deps := (tc.deps.updateTime cmd).1 }, .processed)
  | _ => tc.updateDeps cmd

/-- The test used by `disconnect` and `localError` to select who is told
(src/helics/core/BaseTimeCoordinator.cpp:94,107). -/
def needsBye (d : DepInfo) : Bool := (d.dependency && decide (d.next < cTerm)) || d.dependent

/-- Repeated `appendMessage` (src/helics/core/ActionMessage.cpp:971-980): at most 255 parts are kept, further
appends are refused and their result is ignored by the callers. -/
def appendAll (ms : List Msg) : List Msg := ms.take 255

/-- `BaseTimeCoordinator::disconnect` (src/helics/core/BaseTimeCoordinator.cpp:80-123). -/
def disconnect (tc : TC) : TC :=
  if tc.disconnected then tc
  else
    let bye : Msg := { action := .disconnect, source := tc.self }
    match tc.deps with
    | [] => { tc with disconnected := true }
    | [d] =>
      let tc :=
        if needsBye d then
          (if d.fedID = tc.self then (tc.processTimeMessage { bye with dest := d.fedID }).1
           else tc.send { bye with dest := d.fedID })
        else tc
      { tc with disconnected := true }
    | ds =>
      let ms := appendAll ((ds.filter fun d => needsBye d && d.fedID != tc.self).map
        fun d => { bye with dest := d.fedID })
      let hasLocal := ds.any fun d => needsBye d && d.fedID == tc.self
      let tc := if hasLocal then (tc.processTimeMessage { bye with dest := tc.self }).1 else tc
      { tc with out := tc.out ++ [.multi ms], disconnected := true }

/-- `localError` (src/helics/core/TimeCoordinator.cpp:185-226).  Simplification: in the loop the self entry
is processed after the others (it is only ever the own entry that the loop body changes). -/
def localError (tc : TC) : TC :=
  if tc.disconnected then tc
  else
    let tc := { tc with granted := maxVal, grantBase := maxVal }
    let bye : Msg := { action := .localError, source := tc.self }
    match tc.deps with
    | [] => tc                                  -- returns before `disconnected = true`
    | [d] =>
      let tc :=
        if needsBye d then
          (if d.fedID = tc.self then (tc.processTimeMessage { bye with dest := d.fedID }).1
           else tc.send { bye with dest := d.fedID })
        else tc
      { tc with disconnected := true }
    | ds =>
      let ms := appendAll ((ds.filter fun d => needsBye d && d.fedID != tc.self).map
        fun d => { bye with dest := d.fedID })
      let hasLocal := ds.any fun d => needsBye d && d.fedID == tc.self
      let tc := if hasLocal then (tc.processTimeMessage { bye with dest := tc.self }).1 else tc
      { tc with out := tc.out ++ [.multi ms], disconnected := true }

/-- `struct RestrictionCheckResult` (src/helics/core/TimeCoordinator.cpp:27-31). -/
structure RestrictionCheck where
  allowed : Bool
  advance : Bool
  level : Nat
  deriving DecidableEq, Repr

/-- `checkTimeGrantRestriction` (src/helics/core/TimeCoordinator.cpp:33-71); the Boolean in the
accumulator is the `break`. -/
def checkGrantRestriction (ds : Deps) (self : FedId) (seq : Int) (exec : Time) (wait restricted : Bool) :
    RestrictionCheck :=
  if wait then ⟨false, restricted, 50⟩
  else
    (ds.foldl (fun (acc : RestrictionCheck × Bool) d =>
      if acc.2 then acc
      else if !d.dependency then acc
      else if d.next > exec ∨ d.connection = .self then acc
      else
        let a := if d.minFed ≠ self then { acc.1 with allowed := false } else acc.1
        if d.responseSequenceCounter = seq then
          (if restricted then { a with level := min a.level d.restrictionLevel } else a, false)
        else ({ a with advance := false, allowed := false }, true))
      (⟨true, restricted, 50⟩, false)).1

/-- `checkExecEntryRestriction` (src/helics/core/TimeCoordinator.cpp:73-115). -/
def checkExecRestriction (ds : Deps) (self : FedId) (seq : Int) (wait restricted : Bool) :
    RestrictionCheck :=
  if wait then ⟨false, restricted, 50⟩
  else
    (ds.foldl (fun (acc : RestrictionCheck × Bool) d =>
      if acc.2 then acc
      else if !d.dependency then acc
      else if d.state = .initialized then ({ acc.1 with allowed := false, advance := false }, true)
      else if TimeState.execReq.rank ≤ d.state.rank then acc
      else
        let a := if d.minFed ≠ self then { acc.1 with allowed := false } else acc.1
        if d.responseSequenceCounter = seq then
          (if restricted then { a with level := min a.level d.restrictionLevel } else a, false)
        else ({ a with advance := false, allowed := false }, true))
      (⟨true, restricted, 50⟩, false)).1

/-- `applyRestrictionCheckResult` (src/helics/core/TimeCoordinator.cpp:117-145).  Returns the coordinator
(restriction level and sequence counter updated), the new `sendAll` and the result. -/
def applyRestriction (tc : TC) (c : RestrictionCheck) (restricted sendAll : Bool) (ok : MPR) :
    TC × Bool × MPR :=
  if c.allowed then
    if !restricted then (tc, sendAll, ok)
    else if c.level ≥ 1 then (tc, sendAll, ok)
    else if tc.restrictionLevel ≠ c.level + 1 then
      ({ tc with restrictionLevel := c.level + 1, seq := tc.seq + 1 }, true, .continueProcessing)
    else (tc, sendAll, .continueProcessing)
  else if c.advance then
    ({ tc with restrictionLevel := c.level + 1, seq := tc.seq + 1 }, true, .continueProcessing)
  else (tc, sendAll, .continueProcessing)

/-- "reply to the federate that triggered the check" (src/helics/core/TimeCoordinator.cpp:616-620). -/
def replyTrigger (tc : TC) (trigger : FedId) : TC :=
  if FedId.isValid trigger ∧ trigger ≠ tc.self then tc.sendTimeRequest trigger else tc

/-- A plain grant: counters cleared then `updateTimeGrant`
(src/helics/core/TimeCoordinator.cpp:679-683). -/
def grantNext (tc : TC) : TC :=
  ({ tc with iteration := 0, seq := 0, hasIterationData := false }).updateTimeGrant

/-- The part of the decision made inside the `ITERATE_IF_NEEDED`/`FORCE_ITERATION` case when
`time_allow == time_exec` (src/helics/core/TimeCoordinator.cpp:733-776). -/
def iterDecision (tc : TC) (sendAll : Bool) : TC × Bool × MPR :=
  if tc.allow = tc.requested then
    if !tc.info.waitForCurrent then
      if tc.requested ≤ tc.exec then (tc, sendAll, .nextStep)
      else if tc.deps.readyForTimeGrant false tc.exec .none then (tc, sendAll, .nextStep)
      else (tc, sendAll, .continueProcessing)
    else (tc, sendAll, .continueProcessing)
  else if tc.deps.readyForTimeGrant true tc.exec (getDelayMode tc.info.waitForCurrent false) then
    if tc.hasIterationData then (tc, sendAll, .iterating)
    else if tc.exec > tc.granted then (tc, sendAll, .nextStep)
    else
      let c := checkGrantRestriction tc.deps tc.self tc.seq tc.exec tc.info.waitForCurrent
        tc.info.restrictive
      tc.applyRestriction c tc.info.restrictive sendAll .nextStep
  else (tc, sendAll, .continueProcessing)

/-- The final `switch (ret)` of `checkTimeGrant` (src/helics/core/TimeCoordinator.cpp:783-816). -/
def finishGrant (tc : TC) (trigger : FedId) (sendAll : Bool) (ret : MPR) : TC × MPR :=
  match ret with
  | .continueProcessing =>
    (if FedId.isValid trigger || sendAll then
      (if sendAll then tc.sendTimeRequest invalidFed
       else if trigger ≠ tc.self then tc.sendTimeRequest trigger else tc)
     else tc, ret)
  | .iterating =>
    (({ tc with iteration := tc.iteration + 1, hasIterationData := false }).updateTimeGrant, ret)
  | .nextStep =>
    if tc.iterating = .forceIteration then
      (({ tc with iteration := tc.iteration + 1, hasIterationData := false
                  exec := tc.granted }).updateTimeGrant, .iterating)
    else (tc.grantNext, ret)
  | _ => (tc, ret)

/-- The `NO_ITERATIONS` case of `checkTimeGrant` (src/helics/core/TimeCoordinator.cpp:677-710). -/
def grantNoIter (tc : TC) (trigger : FedId) (sendAll : Bool) : TC × MPR :=
  if tc.allow > tc.exec then (tc.grantNext, .nextStep)
  else if tc.allow = tc.exec then
    if !tc.info.waitForCurrent ∧ tc.requested ≤ tc.exec then (tc.grantNext, .nextStep)
    else if tc.deps.readyForTimeGrant false tc.exec
        (getDelayMode tc.info.waitForCurrent (decide (tc.requested > tc.exec))) then
      (tc.grantNext, .nextStep)
    else tc.finishGrant trigger sendAll .continueProcessing
  else tc.finishGrant trigger sendAll .continueProcessing

/-- The iterating cases of `checkTimeGrant` (src/helics/core/TimeCoordinator.cpp:711-778). -/
def grantIter (tc : TC) (trigger : FedId) (sendAll : Bool) : TC × MPR :=
  if tc.allow > tc.exec then
    if tc.exec ≤ tc.granted ∨ tc.hasIterationData then
      (({ tc with iteration := tc.iteration + 1, hasIterationData := false }).updateTimeGrant, .iterating)
    else if tc.iterating = .forceIteration then
      (({ tc with iteration := tc.iteration + 1 }).updateTimeGrant, .iterating)
    else (({ tc with iteration := 0, seq := 0 }).updateTimeGrant, .nextStep)
  else if tc.allow = tc.exec then
    let r := tc.iterDecision sendAll
    r.1.finishGrant trigger r.2.1 r.2.2
  else tc.finishGrant trigger sendAll .continueProcessing

/-- `checkTimeGrant` (src/helics/core/TimeCoordinator.cpp:604-819). -/
def checkTimeGrant (tc : TC) (trigger : FedId := invalidFed) : TC × MPR :=
  let tc := tc.updateTimeFactors
  if tc.exec ≥ cTerm ∧ tc.allow ≥ cTerm then
    (({ tc with granted := maxVal, grantBase := maxVal }).disconnect, .halted)
  else if tc.block ≤ tc.exec ∧ tc.block < cTerm then (tc.replyTrigger trigger, .continueProcessing)
  else if tc.nonGranting ∧ tc.exec < tc.requested then (tc.replyTrigger trigger, .continueProcessing)
  else
    let sendAll := tc.needSendAll
    let tc := { tc with needSendAll := false }
    match tc.iterating with
    | .noIterations => tc.grantNoIter trigger sendAll
    | .iterateIfNeeded => tc.grantIter trigger sendAll
    | .forceIteration => tc.grantIter trigger sendAll
    | _ => tc.finishGrant trigger sendAll .continueProcessing

/-- `BaseTimeCoordinator::sendTimingInfo` (src/helics/core/BaseTimeCoordinator.cpp:286-304). -/
def sendTimingInfo (tc : TC) : TC :=
  { tc with out := tc.out ++ tc.deps.filterMap fun d =>
      if d.dependent then
        some (.single { action := .timingInfo, source := tc.self, dest := d.fedID
                        nonGranting := tc.nonGranting, delayedTiming := tc.delayedTiming, extraData := 1 })
      else none }

/-- `enteringExecMode` (src/helics/core/TimeCoordinator.cpp:149-183). -/
def enteringExecMode (tc : TC) (mode : IterReq) : TC :=
  if tc.executionMode then tc
  else
    let tc := { tc with iterating := mode }
    if tc.deps.checkForIssues tc.info.waitForCurrent then tc.send tc.issueError
    else
      let tc := { tc.sendTimingInfo with checkingExec := true }
      let m : Msg := { action := .execRequest, source := tc.self, delayedTiming := tc.info.waitForCurrent }
      if mode ≠ .noIterations then
        let tc := { tc with seq := tc.seq + 1 }
        let m := { setIterationFlags m mode with counter := toU16 tc.seq }
        let m := if !tc.hasInitUpdates then
            { m with extraData := (tc.deps.execEntryMinFed tc.self).fedID } else m
        (tc.transmit m).1
      else (tc.transmit m).1

/-- `sendUpdatedExecRequest` (src/helics/core/TimeCoordinator.cpp:1041-1074). -/
def sendUpdatedExecRequest (tc : TC) (target : FedId := invalidFed) (minFed : FedId := invalidFed)
    (rsc : Int := 0) : TC :=
  let mf := tc.deps.execEntryMinFed tc.self
  let minFed' := if FedId.isValid minFed then minFed else mf.fedID
  let rsc' := if FedId.isValid minFed then rsc else mf.sequenceCounter
  let m : Msg := setIterationFlags
    { action := .execRequest, source := tc.self, counter := toU16 tc.seq, extraData := minFed'
      messageID := tc.restrictionLevel, delayedTiming := tc.info.waitForCurrent } tc.iterating
  if FedId.isValid target then tc.send { m with dest := target, extraDestData := rsc' }
  else
    { tc with out := tc.out ++ tc.deps.filterMap fun d =>
        if d.dependent && decide (d.state.rank < TimeState.granted.rank) then
          some (.single { m with dest := d.fedID, extraDestData := d.sequenceCounter })
        else none }

/-- Answer to a triggering federate that is looked up in the table
(src/helics/core/TimeCoordinator.cpp:1094-1099,1223-1226). -/
def replyExec (tc : TC) (trigger minFed : FedId) : TC :=
  match tc.deps.find trigger with
  | none => { tc with ub := true }             -- `tfed->dependent` with `tfed == nullptr`
  | some d => if d.dependent then tc.sendUpdatedExecRequest trigger minFed d.sequenceCounter else tc

/-- The early-return branch of `checkExecEntry` when the dependencies are not ready
(src/helics/core/TimeCoordinator.cpp:1082-1107). -/
def execNotReady (tc : TC) (trigger : FedId) : TC :=
  if !tc.hasInitUpdates ∧ FedId.isValid trigger ∧ tc.iterating ≠ .noIterations then
    if tc.deps.readyForExecEntry false false then
      let mf := tc.deps.execEntryMinFed tc.self
      if mf.fedID = trigger then tc.sendUpdatedExecRequest trigger invalidFed mf.sequenceCounter
      else tc.replyExec trigger invalidFed
    else { tc with needSendAll := true }
  else tc

/-- The decision part of `checkExecEntry` (src/helics/core/TimeCoordinator.cpp:1108-1168). -/
def execDecision (tc : TC) (sendAll : Bool) : TC × Bool × MPR :=
  match tc.iterating with
  | .noIterations =>
    if !tc.info.waitForCurrent then (tc, sendAll, .nextStep)
    else
      let total := Deps.minTimeTotal tc.deps (tc.info.restrictive || tc.globalTime) tc.self tc.self tc.seq
      ({ tc with total := total }, sendAll, if total.next > 0 then .nextStep else .continueProcessing)
  | .iterateIfNeeded | .forceIteration =>
    let ok : MPR := if tc.iterating = .forceIteration then .iterating else .nextStep
    if tc.iteration ≥ tc.info.maxIterations then (tc, sendAll, ok)
    else if tc.hasInitUpdates then (tc, sendAll, .iterating)
    else if tc.deps.readyForExecEntry false tc.info.waitForCurrent ||
        (tc.info.waitForCurrent && tc.deps.allPastExec true) then (tc, sendAll, ok)
    else
      let c := checkExecRestriction tc.deps tc.self tc.seq tc.info.waitForCurrent tc.info.restrictive
      tc.applyRestriction c tc.info.restrictive sendAll ok
  | _ => (tc, sendAll, .continueProcessing)

/-- `TIME_COORDINATOR_VERSION` (src/helics/core/BaseTimeCoordinator.hpp:48). -/
def version : Int := 1

/-- The effects of an exec grant (src/helics/core/TimeCoordinator.cpp:1169-1211). -/
def execGrant (tc : TC) (ret : MPR) : TC :=
  if !tc.dynamicJoining then
    match ret with
    | .nextStep =>
      let tc := { tc with granted := 0, grantBase := 0, executionMode := true, iteration := 0
                          restrictionLevel := 0 }
      (tc.transmit { action := .execGrant, source := tc.self, extraDestData := version }).1
    | .iterating =>
      let tc := { tc with deps := tc.deps.resetIterExec, hasInitUpdates := false
                          iteration := tc.iteration + 1 }
      let r := tc.transmit { action := .execGrant, source := tc.self, counter := toU16 tc.iteration
                             extraDestData := version, iterationRequested := true }
      { r.1 with restrictionLevel := 0 }
    | _ => tc
  else
    match ret with
    | .nextStep =>
      let tc := tc.updateTimeFactors
      let g := if tc.deps.activeCount > 0 then
          tc.generateAllowedTime tc.total.next - max tc.info.period tc.info.timeDelta else 0
      let tc := { tc with granted := g, grantBase := g, executionMode := true, iteration := 0
                          restrictionLevel := 0 }
      (tc.transmit { action := if g > 0 then .timeGrant else .execGrant, source := tc.self
                     actionTime := g, extraDestData := version }).1
    | _ => tc

/-- The replies sent when entry continues to wait (src/helics/core/TimeCoordinator.cpp:1212-1230). -/
def execContinue (tc : TC) (trigger : FedId) (sendAll : Bool) (ret : MPR) : TC :=
  if FedId.isValid trigger ∧ ret = .continueProcessing ∧ tc.iterating ≠ .noIterations then
    let mf := tc.deps.execEntryMinFed tc.self
    if sendAll then tc.sendUpdatedExecRequest invalidFed mf.fedID mf.sequenceCounter
    else if trigger ≠ tc.self then
      if trigger = mf.fedID ∧ mf.dependent then
        tc.sendUpdatedExecRequest trigger mf.fedID mf.sequenceCounter
      else tc.replyExec trigger mf.fedID
    else tc
  else tc

/-- `checkExecEntry` (src/helics/core/TimeCoordinator.cpp:1076-1232). -/
def checkExecEntry (tc : TC) (trigger : FedId := invalidFed) : TC × MPR :=
  if tc.block ≤ 0 then (tc, .continueProcessing)
  else if !tc.deps.readyForExecEntry (tc.iterating != .noIterations) tc.info.waitForCurrent then
    (tc.execNotReady trigger, .continueProcessing)
  else
    let sendAll := tc.needSendAll
    let r := ({ tc with needSendAll := false }).execDecision sendAll
    ((r.1.execGrant r.2.2).execContinue trigger r.2.1 r.2.2, r.2.2)

/-- `setProperty(int, Time)` (src/helics/core/TimeCoordinator.cpp:1403-1427): the property identifiers. -/
inductive TimeProp | outputDelay | inputDelay | timeDelta | period | offset | other
  deriving DecidableEq, Repr

/-- `setProperty(int, Time)` (src/helics/core/TimeCoordinator.cpp:1403-1427). -/
def setTimeProperty (tc : TC) (p : TimeProp) (v : Time) : TC :=
  { tc with info :=
    match p with
    | .outputDelay => { tc.info with outputDelay := v }
    | .inputDelay => { tc.info with inputDelay := v }
    | .timeDelta => { tc.info with timeDelta := if v ≤ 0 then timeEpsilon else v }
    | .period => { tc.info with period := v }
    | .offset => { tc.info with offset := v }
    | .other => tc.info }

/-- `getTimeProperty` (src/helics/core/TimeCoordinator.cpp:1460-1476). -/
def getTimeProperty (tc : TC) : TimeProp → Time
  | .outputDelay => tc.info.outputDelay
  | .inputDelay => tc.info.inputDelay
  | .timeDelta => tc.info.timeDelta
  | .period => tc.info.period
  | .offset => tc.info.offset
  | .other => minVal

/-- Option flags of `setOptionFlag` (src/helics/core/TimeCoordinator.cpp:1439-1457). -/
inductive OptFlag | uninterruptible | interruptible | waitForCurrent | restrictive | eventTriggered | other
  deriving DecidableEq, Repr

/-- `setOptionFlag` (src/helics/core/TimeCoordinator.cpp:1439-1457): note that `INTERRUPTIBLE` is not
accepted here. -/
def setOptionFlag (tc : TC) (f : OptFlag) (v : Bool) : TC :=
  { tc with info :=
    match f with
    | .uninterruptible => { tc.info with uninterruptible := v }
    | .waitForCurrent => { tc.info with waitForCurrent := v }
    | .restrictive => { tc.info with restrictive := v }
    | .eventTriggered => { tc.info with eventTriggered := v }
    | .interruptible | .other => tc.info }

/-- `getOptionFlag` (src/helics/core/TimeCoordinator.cpp:1490-1506); `none` models the thrown
`invalid_argument`. -/
def getOptionFlag (tc : TC) : OptFlag → Option Bool
  | .uninterruptible => some tc.info.uninterruptible
  | .interruptible => some (!tc.info.uninterruptible)
  | .waitForCurrent => some tc.info.waitForCurrent
  | .restrictive => some tc.info.restrictive
  | .eventTriggered => some tc.info.eventTriggered
  | .other => none

/-- `setProperty(int, int)` for `MAX_ITERATIONS` (src/helics/core/TimeCoordinator.cpp:1429-1436). -/
def setMaxIterations (tc : TC) (v : Int) : TC := { tc with info := { tc.info with maxIterations := v } }

/-- `BaseTimeCoordinator::addDependency` (src/helics/core/BaseTimeCoordinator.cpp:163-175). -/
def addDependency (tc : TC) (g : FedId) : TC × Bool :=
  let r := tc.deps.addDependency g
  let ds := if r.2 ∧ g = tc.self then r.1.modify g (fun d => { d with connection := .self }) else r.1
  ({ tc with deps := ds }, r.2)

/-- `BaseTimeCoordinator::addDependent` (src/helics/core/BaseTimeCoordinator.cpp:177-180). -/
def addDependent (tc : TC) (g : FedId) : TC := { tc with deps := (tc.deps.addDependent g).1 }

/-- `setAsChild`/`setAsParent` (src/helics/core/BaseTimeCoordinator.cpp:193-203). -/
def setConn (tc : TC) (g : FedId) (c : Conn) : TC :=
  if g = tc.self then tc else { tc with deps := tc.deps.modify g (fun d => { d with connection := c }) }

/-- `processDependencyUpdateMessage` (src/helics/core/BaseTimeCoordinator.cpp:413-454). -/
def processDependencyUpdate (tc : TC) (cmd : Msg) : TC :=
  let r : TC × Bool :=
    match cmd.action with
    | .addDependency => tc.addDependency cmd.source
    | .removeDependency => ({ tc with deps := tc.deps.removeDependency cmd.source }, false)
    | .addDependent => (tc.addDependent cmd.source, false)
    | .removeDependent => (tc.removeDependent cmd.source, false)
    | .addInterdependency =>
      let r := tc.addDependency cmd.source
      (r.1.addDependent cmd.source, r.2)
    | .removeInterdependency =>
      ({ tc with deps := (tc.deps.removeDependency cmd.source).removeDependent cmd.source }, false)
    | .timingInfo => ({ tc with deps := (tc.deps.updateTime cmd).1 }, false)
    | _ => (tc, false)
  if r.2 then
    let tc := if cmd.child then r.1.setConn cmd.source .child else r.1
    let tc := if cmd.parent then tc.setConn cmd.source .parent else tc
    if cmd.counter > 0 then
      { tc with deps := tc.deps.modify cmd.source (fun d => { d with timingVersion := toI8 cmd.counter }) }
    else tc
  else r.1

end TC
end Verif
