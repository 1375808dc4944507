import Verif.Model.Input
/-!
# Endpoints: src/helics/core/EndpointInfo.hpp and src/helics/core/EndpointInfo.cpp
-/
namespace Verif

/-- The parts of `Message` (src/helics/core/core-data.hpp) the queue looks at, and its content.  Names are byte strings, compared
as `std::string` does. -/
structure EMsg where
  time : Time
  source : List UInt8
  body : List UInt8 := []
  deriving DecidableEq, Repr, Inhabited

/-- `EndpointInformation` (src/helics/core/EndpointInfo.hpp:22-31). -/
structure EInfo where
  id : GHandle
  key : String
  type : String := ""
  deriving DecidableEq, Repr, Inhabited

/-- `class EndpointInfo` (src/helics/core/EndpointInfo.hpp:32-121).  The counter `mAvailableMessages` is a 32-bit atomic; it is
an unbounded integer here. -/
structure Endpoint where
  queue : List EMsg := []
  avail : Int := 0
  sources : List EInfo := []
  targetInfo : List EInfo := []
  targets : List (GHandle × String) := []
  sourceTargets : String := ""
  destTargets : String := ""
  required : Bool := false
  targeted : Bool := false
  sourceOnly : Bool := false
  receiveOnly : Bool := false
  requiredConns : Int := 0
  deriving Repr, Inhabited

namespace Endpoint

/-- `msgSorter` (src/helics/core/EndpointInfo.cpp:112-117). -/
def msgLt (a b : EMsg) : Bool := if a.time ≠ b.time then decide (a.time < b.time) else decide (a.source < b.source)

/-- Insertion behind every element that does not come after `m`. -/
def insertMsg (m : EMsg) : List EMsg → List EMsg
  | [] => [m]
  | e :: es => if msgLt m e then m :: e :: es else e :: insertMsg m es

/-- `std::stable_sort(begin, end, msgSorter)` (src/helics/core/EndpointInfo.cpp:123).  A library call: its result (sorted,
a permutation, equal elements in their old order) is unique, and is computed here by insertion. -/
def stableSort (l : List EMsg) : List EMsg := l.foldl (fun q m => insertMsg m q) []

/-- `EndpointInfo::addMessage` (src/helics/core/EndpointInfo.cpp:119-124). -/
def addMessage (e : Endpoint) (m : EMsg) : Endpoint := { e with queue := stableSort (e.queue ++ [m]) }

/-- The counting loop of the update functions (src/helics/core/EndpointInfo.cpp:28-36): messages at the front before one
whose time stops the loop. -/
def countFront (stop : Time → Bool) : List EMsg → Int
  | [] => 0
  | m :: ms => if stop m.time then 0 else 1 + countFront stop ms

/-- `EndpointInfo::updateTimeUpTo` (src/helics/core/EndpointInfo.cpp:23-42). -/
def updateTimeUpTo (e : Endpoint) (T : Time) : Endpoint × Bool :=
  let index := countFront (fun t => decide (t ≥ T)) e.queue
  if index ≠ e.avail then ({ e with avail := index }, true) else (e, false)

/-- `EndpointInfo::updateTimeNextIteration` (src/helics/core/EndpointInfo.cpp:44-63). -/
def updateTimeNextIteration (e : Endpoint) (T : Time) : Endpoint × Bool :=
  let index := countFront (fun t => decide (t > T)) e.queue
  if index ≠ e.avail then ({ e with avail := index }, true) else (e, false)

/-- `EndpointInfo::updateTimeInclusive` (src/helics/core/EndpointInfo.cpp:65-84). -/
def updateTimeInclusive (e : Endpoint) (T : Time) : Endpoint × Bool :=
  let index := countFront (fun t => decide (t > T)) e.queue
  if index ≠ e.avail then ({ e with avail := index }, true) else (e, false)

/-- `EndpointInfo::getMessage` (src/helics/core/EndpointInfo.cpp:86-103). -/
def getMessage (e : Endpoint) (maxTime : Time) : Endpoint × Option EMsg :=
  if e.avail > 0 then
    match e.queue with
    | [] => (e, none)
    | m :: ms => if m.time ≤ maxTime then ({ e with avail := e.avail - 1, queue := ms }, some m) else (e, none)
  else (e, none)

/-- `EndpointInfo::firstMessageTime` (src/helics/core/EndpointInfo.cpp:105-109). -/
def firstMessageTime (e : Endpoint) : Time := match e.queue with | [] => maxVal | m :: _ => m.time

/-- `EndpointInfo::clearQueue` (src/helics/core/EndpointInfo.cpp:126-130). -/
def clearQueue (e : Endpoint) : Endpoint := { e with avail := 0, queue := [] }

/-- `EndpointInfo::queueSize` (src/helics/core/EndpointInfo.cpp:152-164). -/
def queueSize (e : Endpoint) (T : Time) : Int := countFront (fun t => decide (¬ t ≤ T)) e.queue

/-- `EndpointInfo::queueSizeUpTo` (src/helics/core/EndpointInfo.cpp:166-178). -/
def queueSizeUpTo (e : Endpoint) (T : Time) : Int := countFront (fun t => decide (¬ t < T)) e.queue

/-- `EndpointInfo::addDestination` (src/helics/core/EndpointInfo.cpp:180-196). -/
def addDestination (e : Endpoint) (dest : GHandle) (name type : String) : Endpoint :=
  if e.targetInfo.any (fun t => decide (t.id = dest)) then e
  else
    let ti := e.targetInfo ++ [⟨dest, name, type⟩]
    { e with targetInfo := ti, targets := ti.map fun t => (t.id, t.key) }

/-- `EndpointInfo::addSource` (src/helics/core/EndpointInfo.cpp:198-209). -/
def addSource (e : Endpoint) (src : GHandle) (name type : String) : Endpoint :=
  if e.sources.any (fun t => decide (t.id = src)) then e
  else { e with sources := e.sources ++ [⟨src, name, type⟩] }

/-- The two erase steps shared by `removeTarget` and `disconnectFederate`
(src/helics/core/EndpointInfo.cpp:212-235, 237-261). -/
def dropWhere (e : Endpoint) (p : EInfo → Bool) : Endpoint :=
  let e1 :=
    if e.targetInfo.isEmpty then e
    else
      let kept := e.targetInfo.filter (fun t => !p t)
      if kept.length ≠ e.targetInfo.length then
        { e with targetInfo := kept, targets := kept.map fun t => (t.id, t.key) }
      else e
  if e1.sources.isEmpty then e1 else { e1 with sources := e1.sources.filter (fun t => !p t) }

/-- `EndpointInfo::removeTarget` (src/helics/core/EndpointInfo.cpp:212-235). -/
def removeTarget (e : Endpoint) (h : GHandle) : Endpoint := e.dropWhere (fun t => decide (t.id = h))

/-- `EndpointInfo::disconnectFederate` (src/helics/core/EndpointInfo.cpp:237-261). -/
def disconnectFederate (e : Endpoint) (f : FedId) : Endpoint := e.dropWhere (fun t => decide (t.id.fed = f))

/-- `EndpointInfo::getSourceTargets` (src/helics/core/EndpointInfo.cpp:262-279). -/
def getSourceTargets (quote : String → String) (e : Endpoint) : Endpoint × String :=
  if e.sourceTargets = "" then
    let s := Input.nameList quote (e.sources.map (·.key))
    ({ e with sourceTargets := s }, s)
  else (e, e.sourceTargets)

/-- `EndpointInfo::getDestinationTargets` (src/helics/core/EndpointInfo.cpp:281-298). -/
def getDestinationTargets (quote : String → String) (e : Endpoint) : Endpoint × String :=
  if e.destTargets = "" then
    let s := Input.nameList quote (e.targetInfo.map (·.key))
    ({ e with destTargets := s }, s)
  else (e, e.destTargets)

/-- Whether `checkInterfacesForIssues` reports an issue (src/helics/core/EndpointInfo.cpp:300-349); the message texts are
not modelled. -/
def hasIssue (e : Endpoint) : Bool :=
  e.targeted &&
  ((e.required && e.sources.isEmpty && e.targetInfo.isEmpty) ||
   (decide (e.requiredConns > 0) &&
    (if (max e.targetInfo.length e.sources.length : Int) > e.requiredConns then true
     else if ((e.targetInfo.length + e.sources.length : Nat) : Int) ≠ e.requiredConns then
       decide (((e.sources.map (·.id) ++ e.targetInfo.map (·.id)).eraseDups.length : Int) ≠ e.requiredConns)
     else false)))

/-- `EndpointInfo::setProperty` (src/helics/core/EndpointInfo.cpp:351-379). -/
def setProperty (e : Endpoint) (o : Input.Opt) (value : Int) : Endpoint :=
  let b : Bool := value ≠ 0
  match o with
  | .connectionRequired => { e with required := b }
  | .connectionOptional => { e with required := !b }
  | .sendOnly => { e with sourceOnly := b }
  | .receiveOnly => { e with receiveOnly := b }
  | .singleConnectionOnly => { e with requiredConns := if b then 1 else 0 }
  | .multipleConnectionsAllowed => { e with requiredConns := if !b then 0 else 1 }
  | .connections => { e with requiredConns := value }
  | _ => e

/-- `EndpointInfo::getProperty` (src/helics/core/EndpointInfo.cpp:381-409). -/
def getProperty (e : Endpoint) (o : Input.Opt) : Int :=
  let flag (b : Bool) : Int := if b then 1 else 0
  match o with
  | .connectionRequired => flag e.required
  | .connectionOptional => flag !e.required
  | .singleConnectionOnly => flag (e.requiredConns = 1)
  | .sendOnly => flag e.sourceOnly
  | .receiveOnly => flag e.receiveOnly
  | .multipleConnectionsAllowed => flag (e.requiredConns ≠ 1)
  | .connections => Input.toInt32 e.targetInfo.length
  | _ => 0

/-- The calls made on an endpoint's queue (src/helics/core/FederateState.cpp:302-336, 854-906, 1847-1896). -/
inductive Op
  | add (m : EMsg)
  | upTo (T : Time)
  | inclusive (T : Time)
  | nextIteration (T : Time)
  | get (T : Time)
  deriving Repr

/-- One call and the message it returned, if any. -/
def step (e : Endpoint) : Op → Endpoint × Option EMsg
  | .add m => (e.addMessage m, none)
  | .upTo T => ((e.updateTimeUpTo T).1, none)
  | .inclusive T => ((e.updateTimeInclusive T).1, none)
  | .nextIteration T => ((e.updateTimeNextIteration T).1, none)
  | .get T => e.getMessage T

/-- A history: final endpoint and messages delivered, in order. -/
def run (e : Endpoint) : List Op → Endpoint × List EMsg
  | [] => (e, [])
  | o :: os => ((run (e.step o).1 os).1, (e.step o).2.toList ++ (run (e.step o).1 os).2)

end Endpoint
end Verif
