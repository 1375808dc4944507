import Verif.Model.TimeCoord
import Verif.Model.Input
import Verif.Model.Publication
import Verif.Model.Endpoint
import Verif.Model.Fed
/-!
# Property and flag settings of a federate and of interface handles

`FederateState::setProperty`, `setOptionFlag`, `getTimeProperty`, `getOptionFlag`, `getIntegerProperty`
(src/helics/core/FederateState.cpp:2095-2400) and the API calls in front of them
(src/helics/core/CommonCore.cpp:1086-1230, 1477-1527, src/helics/core/HandleManager.cpp:170-245).
-/
namespace Verif

/-- The flags switched on by `setOptionFlag` (src/helics/core/FederateState.cpp:2182-2293), those of the time coordinator
(src/helics/core/TimeCoordinator.cpp:1439-1457) and `other` for everything else. -/
inductive FFlag
  | onlyTransmitOnChange | handleOnlyTransmitOnChange | onlyUpdateOnChange | handleOnlyUpdateOnChange
  | strictInputTypeChecking | ignoreInputUnitMismatch | slowResponding | debugging | profiling | allowRemoteControl
  | disableRemoteControl | profilingMarker | localProfilingCapture | terminateOnError | realtime | sourceOnly | observer
  | reentrant | callbackFederate | ignoreTimeMismatchWarnings | waitForCurrentTimeUpdate | bufferData | reconnectable
  | connectionsRequired | connectionsOptional | logBuffer
  | uninterruptible | interruptible | restrictiveTimePolicy | eventTriggered | other
  deriving DecidableEq, Repr

/-- The settings-related members of `FederateState` (src/helics/core/FederateState.hpp:66-123) with the options of its time
coordinator (src/helics/core/TimeCoordinator.hpp:23-42).  `logBufferCapacity` stands for the log buffer.  Simplification: the bits
required, optional and reconnectable of `interfaceFlags` are three Booleans (their independence is C28). -/
structure FedSettings where
  state : FedState := .created
  onlyTransmit : Bool := false
  onlyUpdate : Bool := false
  strictInput : Bool := false
  ignoreUnit : Bool := false
  slow : Bool := false
  profiler : Bool := false
  remote : Bool := true
  localProfile : Bool := false
  terminateOnError : Bool := false
  realtime : Bool := false
  sourceOnly : Bool := false
  observer : Bool := false
  reentrant : Bool := false
  callback : Bool := false
  ignoreMismatch : Bool := false
  waitCurrent : Bool := false
  reconnectable : Bool := false
  required : Bool := false
  optional : Bool := false
  logCapacity : Nat := 0
  rtLag : Time := 0
  rtLead : Time := 0
  grantTimeout : Time := 0
  indexGroup : Int := 0
  /-- `valueBufferWarningLimit` -/
  valueWarn : Int := 100 * 1024 * 1024
  logLevel : Int := 0
  tc : TC := default
  deriving Inhabited

namespace FedSettings

/-- `FederateState::setOptionFlag` (src/helics/core/FederateState.cpp:2182-2293).  The log buffer's `enable` keeps a positive capacity or
takes a default one (src/helics/common/LogBuffer.cpp:30-39); profiling markers are not modelled. -/
def setFlag (s : FedSettings) (f : FFlag) (v : Bool) : FedSettings :=
  match f with
  | .onlyTransmitOnChange | .handleOnlyTransmitOnChange => { s with onlyTransmit := v }
  | .onlyUpdateOnChange | .handleOnlyUpdateOnChange => { s with onlyUpdate := v }
  | .strictInputTypeChecking => { s with strictInput := v }
  | .ignoreInputUnitMismatch => { s with ignoreUnit := v }
  | .slowResponding | .debugging => { s with slow := v }
  | .profiling => { s with profiler := v }
  | .allowRemoteControl => { s with remote := v }
  | .disableRemoteControl => { s with remote := !v }
  | .profilingMarker => s
  | .localProfilingCapture => { s with localProfile := v }
  | .terminateOnError => { s with terminateOnError := v }
  | .realtime =>
    if v then (if s.state = .created ∨ s.state = .initializing then { s with realtime := true } else s)
    else { s with realtime := false }
  | .sourceOnly =>
    if s.state = .created then { s with sourceOnly := v, observer := if v then false else s.observer } else s
  | .observer =>
    if s.state = .created then { s with observer := v, sourceOnly := if v then false else s.sourceOnly } else s
  | .reentrant => if s.state = .created then { s with reentrant := v } else s
  | .callbackFederate => if s.state = .created then { s with callback := v } else s
  | .ignoreTimeMismatchWarnings => { s with ignoreMismatch := v }
  | .waitForCurrentTimeUpdate => { s with waitCurrent := v, tc := s.tc.setOptionFlag .waitForCurrent v }
  | .bufferData => s
  | .reconnectable => { s with reconnectable := v }
  | .connectionsRequired => { s with required := v }
  | .connectionsOptional => { s with optional := v }
  | .logBuffer => { s with logCapacity := if v then (if s.logCapacity = 0 then 10 else s.logCapacity) else 0 }
  | .uninterruptible => { s with tc := s.tc.setOptionFlag .uninterruptible v }
  | .interruptible => { s with tc := s.tc.setOptionFlag .interruptible v }
  | .restrictiveTimePolicy => { s with tc := s.tc.setOptionFlag .restrictive v }
  | .eventTriggered => { s with tc := s.tc.setOptionFlag .eventTriggered v }
  | .other => { s with tc := s.tc.setOptionFlag .other v }

/-- `FederateState::getOptionFlag` (src/helics/core/FederateState.cpp:2316-2359); `none` is the thrown `invalid_argument`. -/
def getFlag (s : FedSettings) (f : FFlag) : Option Bool :=
  match f with
  | .onlyTransmitOnChange | .handleOnlyTransmitOnChange => some s.onlyTransmit
  | .onlyUpdateOnChange | .handleOnlyUpdateOnChange => some s.onlyUpdate
  | .realtime => some s.realtime
  | .observer => some s.observer
  | .reentrant => some s.reentrant
  | .callbackFederate => some s.callback
  | .sourceOnly => some s.sourceOnly
  | .slowResponding | .debugging => some s.slow
  | .terminateOnError => some s.terminateOnError
  | .connectionsRequired => some s.required
  | .connectionsOptional => some s.optional
  | .reconnectable => some s.reconnectable
  | .strictInputTypeChecking => some s.strictInput
  | .ignoreInputUnitMismatch => some s.ignoreUnit
  | .ignoreTimeMismatchWarnings => some s.ignoreMismatch
  | .logBuffer => some (decide (s.logCapacity > 0))
  | .uninterruptible => s.tc.getOptionFlag .uninterruptible
  | .interruptible => s.tc.getOptionFlag .interruptible
  | .waitForCurrentTimeUpdate => s.tc.getOptionFlag .waitForCurrent
  | .restrictiveTimePolicy => s.tc.getOptionFlag .restrictive
  | .eventTriggered => s.tc.getOptionFlag .eventTriggered
  | _ => none

/-- The time properties (src/helics/core/FederateState.cpp:2095-2141). -/
inductive TProp | rtLag | rtLead | rtTolerance | grantTimeout | outputDelay | inputDelay | timeDelta | period | offset | other
  deriving DecidableEq, Repr

/-- The coordinator's name of a time property. -/
def TProp.coord : TProp → TC.TimeProp
  | .outputDelay => .outputDelay | .inputDelay => .inputDelay | .timeDelta => .timeDelta
  | .period => .period | .offset => .offset | _ => .other

/-- `CommonCore::setTimeProperty` (src/helics/core/CommonCore.cpp:1111-1125), refusing negative times, followed by
`FederateState::setProperty(int, Time)` (src/helics/core/FederateState.cpp:2095-2141) without its timers; `none` is the thrown
`InvalidParameter`. -/
def setTime (s : FedSettings) (p : TProp) (v : Time) : Option FedSettings :=
  if v < 0 then none
  else some <|
    match p with
    | .rtLag => { s with rtLag := v }
    | .rtLead => { s with rtLead := v }
    | .rtTolerance => { s with rtLag := v, rtLead := v }
    | .grantTimeout => { s with grantTimeout := v }
    | p => { s with tc := s.tc.setTimeProperty p.coord v }

/-- `FederateState::getTimeProperty` (src/helics/core/FederateState.cpp:2301-2314). -/
def getTime (s : FedSettings) : TProp → Time
  | .rtLag | .rtTolerance => s.rtLag
  | .rtLead => s.rtLead
  | .grantTimeout => s.grantTimeout
  | p => s.tc.getTimeProperty p.coord

/-- The integer properties (src/helics/core/FederateState.cpp:2143-2180). -/
inductive IProp | logLevel | indexGroup | logBuffer | valueBufferWarning | maxIterations
  deriving DecidableEq, Repr

/-- `FederateState::setProperty(int, int)` (src/helics/core/FederateState.cpp:2143-2180).  Simplification: the log level goes
through the log manager, which keeps the console level given here; the real-time properties (a conversion from floating point)
are left out. -/
def setInt (s : FedSettings) (p : IProp) (v : Int) : FedSettings :=
  match p with
  | .logLevel => { s with logLevel := v }
  | .indexGroup => { s with indexGroup := max 0 (min v 16) }
  | .logBuffer => { s with logCapacity := if v ≤ 0 then 0 else v.toNat }
  | .valueBufferWarning => { s with valueWarn := if v ≤ 0 then 0 else v * 1024 * 1024 }
  | .maxIterations => { s with tc := s.tc.setMaxIterations v }

/-- `FederateState::getIntegerProperty` (src/helics/core/FederateState.cpp:2377-2395) through `CommonCore::getIntegerProperty`
(src/helics/core/CommonCore.cpp:1136-1157), whose result is a 16-bit integer. -/
def getInt (s : FedSettings) (p : IProp) : Int :=
  let r : Int := match p with
    | .logLevel => s.logLevel
    | .indexGroup => s.indexGroup
    | .logBuffer => s.logCapacity
    | .valueBufferWarning => s.valueWarn / (1024 * 1024)
    | .maxIterations => s.tc.info.maxIterations
  (r + 32768) % 65536 - 32768

/-- A call setting one thing (src/helics/core/CommonCore.cpp:1086-1125, 1159-1202). -/
inductive Set | flag (f : FFlag) (v : Bool) | time (p : TProp) (v : Time) | int (p : IProp) (v : Int)
  deriving Repr

/-- One call; a refused time changes nothing. -/
def step (s : FedSettings) : Set → FedSettings
  | .flag f v => s.setFlag f v
  | .time p v => (s.setTime p v).getD s
  | .int p v => s.setInt p v

end FedSettings

/-- The part of `BasicHandleInfo`'s flag word used by handle options, beside the interface itself
(src/helics/core/HandleManager.cpp:170-211). -/
structure HandleFlags where
  required : Bool := false
  optional : Bool := false
  reconnectable : Bool := false
  receiveOnly : Bool := false
  deriving DecidableEq, Repr, Inhabited

namespace HandleFlags

/-- `HandleManager::setHandleOption` (src/helics/core/HandleManager.cpp:170-211); `isEndpoint` is the handle's type test.
`HELICS_HANDLE_OPTION_RECONNECTABLE` is not among the interface options and left out. -/
def set (h : HandleFlags) (isEndpoint : Bool) (o : Input.Opt) (v : Int) : HandleFlags :=
  match o with
  | .connectionRequired => if v ≠ 0 then { h with optional := false, required := true } else { h with required := false }
  | .connectionOptional => if v ≠ 0 then { h with required := false, optional := true } else { h with optional := false }
  | .receiveOnly => if isEndpoint then { h with receiveOnly := decide (v ≠ 0) } else h
  | _ => h

end HandleFlags

/-- An input with its handle: what `CommonCore::setHandleOption`/`getHandleOption` act on
(src/helics/core/CommonCore.cpp:1477-1527). -/
structure HInput where
  flags : HandleFlags := {}
  input : Input := {}
  deriving Inhabited

namespace HInput

/-- `CommonCore::setHandleOption` (src/helics/core/CommonCore.cpp:1477-1504) on an input before the federate runs. -/
def set (h : HInput) (o : Input.Opt) (v : Int) : HInput :=
  { flags := h.flags.set false o v, input := h.input.setProperty o v }

/-- `CommonCore::getHandleOption` (src/helics/core/CommonCore.cpp:1506-1527). -/
def get (h : HInput) (o : Input.Opt) : Int :=
  match o with
  | .connectionRequired => if h.flags.required then 1 else 0
  | .connectionOptional => if h.flags.optional then 1 else 0
  | o => h.input.getProperty o

end HInput
end Verif
