import Verif.Model.TimeCoord
/-!
# The federate's message-processing state machine

Models `processCoordinatorMessage` (src/helics/core/TimeCoordinatorProcessing.cpp) and the timing-related
part of `FederateState::processActionMessage` / `checkProcResult`
(src/helics/core/FederateState.cpp:1439-1660).
Logging, timers, queries, interface bookkeeping and the (never filled, see `Verif.Props.TimeCoord`)
delay queues are not part of this module.
-/
namespace Verif

/-- `enum class FederateStates` (src/helics/core/CoreTypes.hpp:49-58). -/
inductive FedState | created | initializing | executing | terminating | errored | finished
  deriving DecidableEq, Repr, Inhabited

/-- The timing-related members of `FederateState` (src/helics/core/FederateState.hpp). -/
structure Fed where
  state : FedState := .created
  /-- `timeGranted_mode` -/
  mode : Bool := false
  tc : TC := {}
  /-- `checkInterfaces()` outcome when initialization is granted: `true` means no error
  (src/helics/core/FederateState.cpp:1448). -/
  interfacesOk : Bool := true
  deriving DecidableEq, Repr, Inhabited

namespace Fed

/-- "check for a time grant if one is pending" (src/helics/core/TimeCoordinatorProcessing.cpp:253-259). -/
def tryGrant (f : Fed) (trigger : FedId) : Fed × MPR :=
  if !f.mode then
    let r := f.tc.checkTimeGrant trigger
    ({ f with tc := r.1, mode := f.mode || r.2.returnable }, r.2)
  else (f, .continueProcessing)

/-- The `CMD_EXEC_CHECK` case (src/helics/core/TimeCoordinatorProcessing.cpp:108-146). -/
def execCheck (f : Fed) (cmd : Msg) : Fed × MPR :=
  if f.state ≠ .initializing then (f, .continueProcessing)
  else if !f.mode then
    let r := f.tc.checkExecEntry (if cmd.action = .execRequest then cmd.source else invalidFed)
    match r.2 with
    | .iterating => ({ f with tc := r.1, mode := true }, .iterating)
    | .nextStep => ({ f with tc := r.1, mode := true, state := .executing }, .nextStep)
    | .continueProcessing =>
      ({ f with tc := if cmd.action = .execGrant ∧ !cmd.iterationRequested then r.1.sendUpdatedExecRequest
                      else r.1 }, .continueProcessing)
    | p => ({ f with tc := r.1, mode := true }, p)
  else (f, .continueProcessing)

/-- `processCoordinatorMessage` (src/helics/core/TimeCoordinatorProcessing.cpp:16-320).  Returns the updated
federate (state and mode as in the returned tuple), the processing result and the possibly re-tagged
command.  `CMD_USER_RETURN` compares thread ids; the comparison outcome is carried in `cmd.indicator`. -/
def coordinator (f : Fed) (cmd : Msg) : Fed × MPR × Msg :=
  let self := f.tc.self
  match cmd.action with
  | .userReturn => (f, if cmd.indicator then .userReturn else .continueProcessing, cmd)
  | .timeBlock | .timeBarrier | .timeBarrierClear | .timeUnblock =>
    let r := f.tc.processTimeMessage cmd
    let f' := { f with tc := r.1 }
    if r.2 ≠ .notProcessed ∧ !f.mode then
      if f.state = .initializing then (f', .reprocessMessage, { cmd with action := .execCheck })
      else if f.state = .executing then (f', .reprocessMessage, { cmd with action := .timeCheck })
      else (f', .continueProcessing, cmd)
    else (f', .continueProcessing, cmd)
  | .initGrant =>
    if f.state = .created then
      let tc := if cmd.interrupted /- observer_flag, same bit -/ || cmd.dynamicJoin then
          { f.tc with dynamicJoining := true } else f.tc
      if cmd.iterationRequested then ({ f with tc := tc, mode := false }, .iterating, cmd)
      else ({ f with tc := tc, mode := true, state := .initializing }, .nextStep, cmd)
    else (f, .continueProcessing, cmd)
  | .execRequest =>
    if cmd.source = self ∧ cmd.indicator then
      let it : IterReq := if cmd.iterationRequested then
          (if cmd.required then .forceIteration else .iterateIfNeeded) else .noIterations
      ({ f with tc := f.tc.enteringExecMode it, mode := false }, .continueProcessing, cmd)
    else
      let r := f.tc.processTimeMessage cmd
      let f' := { f with tc := r.1 }
      match r.2 with
      | .delayProcessing => (f', .delayMessage, cmd)
      | .notProcessed => (f', .continueProcessing, cmd)
      | _ => let e := f'.execCheck cmd; (e.1, e.2, cmd)
  | .execGrant =>
    let r := f.tc.processTimeMessage cmd
    let f' := { f with tc := r.1 }
    match r.2 with
    | .delayProcessing => (f', .delayMessage, cmd)
    | .notProcessed => (f', .continueProcessing, cmd)
    | _ => let e := f'.execCheck cmd; (e.1, e.2, cmd)
  | .execCheck => let e := f.execCheck cmd; (e.1, e.2, cmd)
  | .terminateImmediately => ({ f with state := .finished }, .halted, cmd)
  | .stop => ({ f with state := .finished, tc := f.tc.disconnect }, .halted, cmd)
  | .disconnectFedAck =>
    if cmd.dest = self ∧ cmd.source = parentBroker then
      let tc := if f.state ≠ .finished ∧ f.state ≠ .terminating then f.tc.disconnect else f.tc
      ({ f with tc := tc, state := .finished }, .halted, cmd)
    else (f, .continueProcessing, cmd)
  | .requestCurrentTime | .timingInfo =>
    ({ f with tc := (f.tc.processTimeMessage cmd).1 }, .continueProcessing, cmd)
  | .disconnectFed | .disconnect =>
    if cmd.source = self then
      if f.state ≠ .finished ∧ f.state ≠ .terminating then
        ({ f with tc := f.tc.disconnect, state := .terminating }, .reprocessMessage,
          { cmd with dest := parentBroker })
      else (f, .continueProcessing, cmd)
    else
      let r := f.tc.processTimeMessage cmd
      let f' := { f with tc := r.1 }
      let p : MPR := if r.2 = .delayProcessing then .delayMessage else .continueProcessing
      if f.state ≠ .executing then (f', p, cmd)
      else if !f.mode then let g := f'.tryGrant invalidFed; (g.1, g.2, cmd)
      else (f', p, cmd)
  | .broadcastDisconnect | .disconnectBroker | .disconnectCore =>
    let r := f.tc.processTimeMessage cmd
    let f' := { f with tc := r.1 }
    match r.2 with
    | .delayProcessing => (f', .delayMessage, cmd)
    | .notProcessed => (f', .continueProcessing, cmd)
    | _ =>
      if f.state ≠ .executing then (f', .continueProcessing, cmd)
      else let g := f'.tryGrant invalidFed; (g.1, g.2, cmd)
  | .timeRequest | .timeGrant =>
    let r := f.tc.processTimeMessage cmd
    let f' := { f with tc := r.1 }
    match r.2 with
    | .delayProcessing => (f', .delayMessage, cmd)
    | .notProcessed => (f', .continueProcessing, cmd)
    | _ =>
      if f.state ≠ .executing then
        if f.state = .initializing then (f', .reprocessMessage, { cmd with action := .execCheck })
        else (f', .continueProcessing, cmd)
      else
        let g := f'.tryGrant (if cmd.action = .timeRequest then cmd.source else invalidFed)
        (g.1, g.2, cmd)
  | .timeCheck =>
    if f.state ≠ .executing then
      if f.state = .initializing then (f, .reprocessMessage, { cmd with action := .execCheck })
      else (f, .continueProcessing, cmd)
    else let g := f.tryGrant invalidFed; (g.1, g.2, cmd)
  | .forceTimeGrant =>
    if cmd.actionTime < f.tc.granted then (f, .continueProcessing, cmd)
    else ({ f with tc := (f.tc.processTimeMessage cmd).1, mode := true }, .nextStep, cmd)
  | .error | .localError | .globalError =>
    if cmd.action = .globalError ∨ cmd.source = self ∨ cmd.source = parentBroker ∨
        cmd.source = rootBroker ∨ cmd.dest ≠ self then
      if f.state ≠ .finished ∧ f.state ≠ .terminating then
        ({ f with tc := if cmd.action ≠ .globalError then f.tc.localError else f.tc, state := .errored },
          .errorResult, cmd)
      else (f, .continueProcessing, cmd)
    else
      let r := f.tc.processTimeMessage cmd
      let f' := { f with tc := r.1 }
      match r.2 with
      | .delayProcessing => (f', .delayMessage, cmd)
      | .notProcessed => (f', .continueProcessing, cmd)
      | _ =>
        if f.state ≠ .executing then (f', .continueProcessing, cmd)
        else let g := f'.tryGrant invalidFed; (g.1, g.2, cmd)
  | .addDependency | .removeDependency | .addDependent | .removeDependent | .addInterdependency
  | .removeInterdependency =>
    (if cmd.dest = self then { f with tc := f.tc.processDependencyUpdate cmd } else f,
      .continueProcessing, cmd)
  | _ => (f, .continueProcessing, cmd)

/-- `TimeCoordinator::enterInitialization` (src/helics/core/TimeCoordinator.cpp:429-445). -/
def enterInitialization (tc : TC) : TC :=
  if tc.dynamicJoining then
    { tc with out := tc.out ++ tc.deps.filterMap fun d =>
        if d.dependency && d.fedID != tc.self then
          some (.single { action := .requestCurrentTime, source := tc.self, dest := d.fedID })
        else none }
  else tc

/-- `FederateState::setState` side effects in `checkProcResult`
(src/helics/core/FederateState.cpp:1443-1478): `old` is the state before the message.  The Boolean is `true`
when processing stops with an error because the interfaces are not valid. -/
def stateChange (old : FedState) (f : Fed) : Fed × Bool :=
  if old = f.state then (f, false)
  else match f.state with
  | .initializing =>
    if !f.interfacesOk then ({ f with state := .errored }, true)
    else ({ f with tc := enterInitialization f.tc }, false)
  | .executing => ({ f with tc := f.tc.updateTimeFactors }, false)
  | _ => (f, false)

/-- The second `switch` of `processActionMessage` for commands reaching it with timing relevance
(src/helics/core/FederateState.cpp:1535-1590); `none` means "reprocess as `CMD_EXEC_CHECK`". -/
def secondSwitch (f : Fed) (cmd : Msg) : Option (Fed × MPR) :=
  match cmd.action with
  | .execRequest =>
    if cmd.source = f.tc.self ∧ cmd.indicator then none else some (f, .continueProcessing)
  | .disconnectFed | .disconnect =>
    if cmd.source = f.tc.self then
      if f.state ≠ .finished ∧ f.state ≠ .terminating then
        let f := { f with tc := (f.tc.disconnect).send { cmd with dest := parentBroker }
                          state := if f.state ≠ .errored then .terminating else f.state }
        some (f, .continueProcessing)
      else some (f, .continueProcessing)
    else
      let r := f.tc.processTimeMessage cmd
      let f' := { f with tc := r.1 }
      match r.2 with
      | .delayProcessing => some (f', .delayMessage)
      | .notProcessed => some (f', .continueProcessing)
      | _ =>
        if f.state ≠ .executing then some (f', .continueProcessing)
        else if !f.mode then
          let g := f'.tc.checkTimeGrant
          if g.2.returnable then some ({ f' with tc := g.1, mode := true }, g.2)
          else some ({ f' with tc := g.1 }, .continueProcessing)
        else some (f', .continueProcessing)
  | _ => some (f, .continueProcessing)

/-- `processActionMessage` (src/helics/core/FederateState.cpp:1506-1685) for timing commands.  `fuel` bounds
the `REPROCESS_MESSAGE` recursion (a command is re-tagged at most twice). -/
def processN : Nat → Fed → Msg → Fed × MPR
  | 0, f, _ => (f, .continueProcessing)
  | n + 1, f, cmd =>
    let r := f.coordinator cmd
    let s := stateChange f.state r.1
    if s.2 then (s.1, .errorResult)
    else match r.2.1 with
    | .continueProcessing =>
      match secondSwitch s.1 r.2.2 with
      | some x => x
      | none => processN n s.1 { r.2.2 with action := .execCheck }
    | .reprocessMessage =>
      if r.2.2.dest ≠ s.1.tc.self then ({ s.1 with tc := s.1.tc.send r.2.2 }, .continueProcessing)
      else processN n s.1 r.2.2
    | p => (s.1, p)

/-- `processActionMessage` with enough fuel (src/helics/core/FederateState.cpp:1505-1660). -/
def process (f : Fed) (cmd : Msg) : Fed × MPR := processN 4 f cmd

/-- Own time request: `CMD_TIME_REQUEST` with `indicator_flag` from the federate itself
(src/helics/core/FederateState.cpp:1509-1527); `nv`, `nm` are `nextValueTime()` and
`nextMessageTime()`. -/
def request (f : Fed) (t : Time) (it : IterReq) (nv nm : Time) : Fed × MPR :=
  process { f with tc := f.tc.timeRequest t it nv nm, mode := false }
    { action := .timeCheck, source := f.tc.self, dest := f.tc.self, actionTime := t }

/-- Own request to enter executing mode (src/helics/core/FederateState.cpp:578-590). -/
def requestExec (f : Fed) (it : IterReq) : Fed × MPR :=
  process f (setIterationFlags
    { action := .execRequest, source := f.tc.self, dest := f.tc.self, indicator := true } it)

/-- Arrival of a value at an interruptible input (src/helics/core/FederateState.cpp:1925-1945):
`updateValueTime(valueTime, !timeGranted_mode)` then `processTimeMessage(cmd)`. -/
def valueArrives (f : Fed) (cmd : Msg) : Fed :=
  let tc := f.tc.updateValueTime cmd.actionTime (!f.mode)
  { f with tc := if f.state = .created ∨ f.state = .initializing ∨ f.state = .executing then
      (tc.processTimeMessage cmd).1 else tc }

/-- Arrival of a message at an endpoint (src/helics/core/FederateState.cpp:1850-1880). -/
def messageArrives (f : Fed) (cmd : Msg) : Fed :=
  let tc := f.tc.updateMessageTime cmd.actionTime (!f.mode)
  { f with tc := if f.state = .created ∨ f.state = .initializing ∨ f.state = .executing then
      (tc.processTimeMessage cmd).1 else tc }

end Fed
end Verif
