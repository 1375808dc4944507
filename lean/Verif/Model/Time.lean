/-!
# Time values, identifiers and command tags

Models the scalar types shared by the timing code.

* `helics::Time` is `TimeRepresentation<count_time<9>>` (src/helics/core/helicsTime.hpp:22-29): a signed
  64-bit count of nanoseconds.  The class itself lives in a submodule that is absent from the pinned
  tree.  Simplification: it is an unbounded `Int`; overflow of the 64-bit counter is not modelled.
* identifiers are 32-bit integers compared by value; they are `Int` here.
-/
namespace Verif

/-- `helics::Time` as integer nanoseconds (src/helics/core/helicsTime.hpp:26-29).  A macro, not an `abbrev`, so
that arithmetic tactics see `Int`. -/
macro "Time" : term => `(Int)

/-- `Time::maxVal()`: the largest 64-bit count. -/
def maxVal : Time := 9223372036854775807
/-- `Time::minVal()`. -/
def minVal : Time := -9223372036854775807
/-- `cTerminationTime` (src/helics/core/helicsTime.hpp:40): `HELICS_MAX_TIME_VALUE/2` seconds, i.e. half the
largest time.  The proofs use only `0 < cTerm` and `cTerm < maxVal`. -/
def cTerm : Time := 4611686018427387000
/-- `timeEpsilon` (src/helics/core/helicsTime.hpp:34): one nanosecond. -/
def timeEpsilon : Time := 1
/-- `initializationTime = negEpsilon` (src/helics/core/helicsTime.hpp:36,44). -/
def initializationTime : Time := -1
/-- `Time(-1)`, minus one second, assigned at src/helics/core/TimeDependencies.cpp:808. -/
def minusOneSecond : Time := -1000000000

/-- `GlobalFederateId` / `GlobalBrokerId` base value (src/helics/core/GlobalFederateId.hpp:74-135). -/
macro "FedId" : term => `(Int)

/-- Default-constructed `GlobalFederateId` (src/helics/core/GlobalFederateId.hpp:131-132). -/
def invalidFed : FedId := -2010000000
/-- `detail::gInvalidInterfaceHandle` (src/helics/core/LocalFederateId.hpp:57). -/
def invalidHandle : Int := -1700000000
/-- `GlobalFederateId::isValid` (src/helics/core/GlobalFederateId.hpp:112-115). -/
def FedId.isValid (g : FedId) : Bool := g != invalidFed && g != invalidHandle
/-- `gGlobalFederateIdShift` (src/helics/core/GlobalFederateId.hpp:22). -/
def fedShift : Int := 0x00020000
/-- `gGlobalBrokerIdShift` (src/helics/core/GlobalFederateId.hpp:24). -/
def brokerShift : Int := 0x70000000
/-- `GlobalFederateId::isFederate` (src/helics/core/GlobalFederateId.hpp:105-108). -/
def FedId.isFederate (g : FedId) : Bool := decide (fedShift ≤ g) && decide (g < brokerShift)
/-- `GlobalFederateId::isBroker` (src/helics/core/GlobalFederateId.hpp:110). -/
def FedId.isBroker (g : FedId) : Bool := decide (brokerShift ≤ g) || g == 1
/-- `parent_broker_id` (src/helics/core/GlobalFederateId.hpp:69). -/
def parentBroker : FedId := 0
/-- `gRootBrokerID` (src/helics/core/GlobalFederateId.hpp:71). -/
def rootBroker : FedId := 1

/-- `enum class IterationRequest` (src/helics/core/CoreTypes.hpp:103-109). -/
inductive IterReq | noIterations | forceIteration | iterateIfNeeded | haltOperations | errorCondition
  deriving DecidableEq, Repr, Inhabited

/-- `enum class MessageProcessingResult` (src/helics/core/CoreTypes.hpp:75-87). -/
inductive MPR
  | continueProcessing | delayMessage | nextStep | iterating | halted | userReturn | errorResult
  | reprocessMessage | busy
  deriving DecidableEq, Repr, Inhabited

/-- `returnableResult` (src/helics/core/CoreTypes.hpp:89-92): value at least `NEXT_STEP`. -/
def MPR.returnable : MPR → Bool
  | .continueProcessing => false
  | .delayMessage => false
  | _ => true

/-- `enum class TimeProcessingResult` (src/helics/core/TimeDependencies.hpp:41-50). -/
inductive TPR | notProcessed | processed | processedAndCheck | processedNewRequest | delayProcessing
  deriving DecidableEq, Repr, Inhabited

/-- The command tags of `ActionMessage` that the timing code switches on
(src/helics/core/ActionMessageDefintions.hpp); every other tag is `other`. -/
inductive Cmd
  | ignore | initGrant | execRequest | execGrant | execCheck | timeRequest | timeGrant | timeCheck
  | forceTimeGrant | timeBlock | timeUnblock | timeBarrier | timeBarrierClear
  | disconnect | priorityDisconnect | broadcastDisconnect | disconnectCore | disconnectBroker
  | disconnectFed | disconnectFedAck | timingInfo | localError | globalError | error
  | sendMessage | pub | requestCurrentTime | stop | terminateImmediately | userReturn
  | addDependency | removeDependency | addDependent | removeDependent | addInterdependency
  | removeInterdependency | other
  deriving DecidableEq, Repr, Inhabited

/-- The part of `ActionMessage` (src/helics/core/ActionMessage.hpp:30-52) the timing code reads.
Simplification: the 16 flag bits are separate Booleans named as in src/helics/core/flagOperations.hpp:15-130
(bit-level packing is modelled in `Verif.Model.Flags`); `extraData`/`extraDestData` are the handle fields
reached through `getExtraData`/`getExtraDestData`; payload and strings are dropped. -/
structure Msg where
  action : Cmd := .ignore
  messageID : Int := 0
  source : FedId := 0
  dest : FedId := 0
  extraData : Int := -1700000000
  extraDestData : Int := -1700000000
  counter : Int := 0
  actionTime : Time := 0
  Te : Time := 0
  Tdemin : Time := 0
  iterationRequested : Bool := false
  required : Bool := false
  errorFlag : Bool := false
  indicator : Bool := false
  nonGranting : Bool := false
  interrupted : Bool := false
  delayedTiming : Bool := false
  destinationTarget : Bool := false
  dynamicJoin : Bool := false
  child : Bool := false
  parent : Bool := false
  deriving DecidableEq, Repr, Inhabited

/-- `setIterationFlags` (src/helics/core/ActionMessage.cpp:982-999). -/
def setIterationFlags (m : Msg) : IterReq → Msg
  | .forceIteration => { m with iterationRequested := true, required := true }
  | .iterateIfNeeded => { m with iterationRequested := true }
  | .errorCondition => { m with errorFlag := true }
  | _ => m

/-- Conversion of an `int32_t` to the `uint16_t counter` field (src/helics/core/ActionMessage.hpp:43). -/
def toU16 (x : Int) : Int := x % 65536

end Verif
