import Verif.Model.Handles
import Verif.Model.Flags
/-!
# Connecting interfaces in the root broker

`UnknownHandleManager` (src/helics/core/UnknownHandleManager.hpp:20-160, UnknownHandleManager.cpp) and the parts of `CoreBroker` that
resolve named requests and links: a request for a name that is not registered yet is kept, and answered when the name appears.

Only the root broker is modelled (a lower broker forwards what it cannot resolve).  Names, types and units carried by the messages,
federates that have already failed (src/helics/core/CoreBroker.cpp:1814-1821,1840-1847,1897-1904), the check for sources created
after initialization (2100-2128), regular expressions, the removal of interfaces, and the records made for requesters that never
registered (1929-1941,1948-1960; a core registers every interface before it sends requests for it) are not modelled.
A multimap is a list of pairs; the order in which equal keys are visited is the order of the list (the theorems are up to order).
-/
namespace Verif

/-- the four connection commands -/
inductive CAct | addSubscriber | addPublisher | addEndpoint | addFilter
  deriving DecidableEq, Repr

/-- a connection message: `src` is to be connected at `dst` -/
structure CMsg where
  act : CAct
  src : GHandle
  dst : GHandle
  flags : BitVec 16
  deriving DecidableEq, Repr

/-- `unordered_multimap<string, TargetInfo>` -/
abbrev UMap := List (IName × GHandle × BitVec 16)
/-- `unordered_multimap<string, string>` -/
abbrev LMap := List (IName × IName)

/-- The root broker: its interface table, the maps of `UnknownHandleManager`
(src/helics/core/UnknownHandleManager.hpp:25-52), whether it is operating, and the messages sent.  `ub`: a null
pointer was dereferenced. -/
structure Broker where
  handles : HM := {}
  uPubs : UMap := []
  uInps : UMap := []
  uEpts : UMap := []
  uFilts : UMap := []
  links : LMap := []
  eptLinks : LMap := []
  srcFilts : LMap := []
  dstFilts : LMap := []
  rPubs : UMap := []
  rInps : UMap := []
  rEpts : UMap := []
  rFilts : UMap := []
  operating : Bool := false
  out : List CMsg := []
  ub : Bool := false

namespace Broker

/-- destination_target (src/helics/core/flagOperations.hpp:43) -/
def destTarget : Nat := 1
/-- reconnectable_flag (src/helics/core/flagOperations.hpp:51) -/
def reconnectable : Nat := 7
/-- clone_flag (src/helics/core/flagOperations.hpp:80) -/
def cloneFlag : Nat := 9
/-- optional_flag (src/helics/core/flagOperations.hpp:53) -/
def optionalFlag : Nat := 8
/-- required_flag (src/helics/core/flagOperations.hpp:45) -/
def requiredFlag : Nat := 2

/-- the kinds a request can name -/
inductive Want | pub | inp | ept | filt
  deriving DecidableEq, Repr

/-- the kind of lookup a request makes -/
def Want.kind : Want → IfKind
  | .pub => .publication | .inp => .input | .ept => .endpoint | .filt => .filter

/-- `getTargets` (src/helics/core/UnknownHandleManager.cpp:97-124). -/
def targets {α : Type} (m : List (IName × α)) (key : IName) : List α := (m.filter (fun p => p.1 == key)).map (·.2)
/-- `erase(key)` of a multimap (src/helics/core/UnknownHandleManager.cpp:331-356). -/
def clear {α : Type} (m : List (IName × α)) (key : IName) : List (IName × α) := m.filter (fun p => !(p.1 == key))

/-- send messages -/
def send (b : Broker) (ms : List CMsg) : Broker := { b with out := b.out ++ ms }

/-- `addReconnectable...` for the request (src/helics/core/CoreBroker.cpp:1765-1795). -/
def addReconnectable (b : Broker) (w : Want) (name : IName) (src : GHandle) (fl : BitVec 16) : Broker :=
  if Flags.checkFlag fl reconnectable then
    match w with
    | .pub => { b with rPubs := b.rPubs ++ [(name, src, fl)] }
    | .inp => { b with rInps := b.rInps ++ [(name, src, fl)] }
    | .ept => { b with rEpts := b.rEpts ++ [(name, src, fl)] }
    | .filt => { b with rFilts := b.rFilts ++ [(name, src, fl)] }
  else b

/-- `addUnknown...` (src/helics/core/CoreBroker.cpp:1917-1966). -/
def addUnknown (b : Broker) (w : Want) (name : IName) (src : GHandle) (fl : BitVec 16) : Broker :=
  match w with
  | .pub => { b with uPubs := b.uPubs ++ [(name, src, fl)] }
  | .inp => { b with uInps := b.uInps ++ [(name, src, fl)] }
  | .ept => { b with uEpts := b.uEpts ++ [(name, src, fl)] }
  | .filt => { b with uFilts := b.uFilts ++ [(name, src, fl)] }

/-- The messages of `checkForNamedInterface` for an interface `r` that is registered; `isEpt` is the test
`counter == ENDPOINT` (src/helics/core/CoreBroker.cpp:1798-1912). -/
def found (b : Broker) (w : Want) (r : HInfo) (src : GHandle) (fl : BitVec 16) (isEpt : Bool) : List CMsg :=
  match w with
  | .pub => [⟨.addSubscriber, src, r.gh, fl⟩, ⟨.addPublisher, r.gh, src, fl⟩]
  | .inp => [⟨.addPublisher, src, r.gh, fl⟩, ⟨.addSubscriber, r.gh, src, fl⟩]
  | .filt =>
    let fl' := if Flags.checkFlag r.flags cloneFlag then Flags.setFlag fl cloneFlag else fl
    [⟨.addEndpoint, src, r.gh, fl⟩, ⟨.addFilter, r.gh, src, fl'⟩]
  | .ept =>
    if isEpt then
      let fl' := Flags.toggleAction fl destTarget
      [⟨.addEndpoint, src, r.gh, fl'⟩, ⟨.addEndpoint, r.gh, src, Flags.toggleAction fl' destTarget⟩]
    else
      let fl' := match b.handles.findHandle src with
        | some f => if Flags.checkFlag f.flags cloneFlag then Flags.setFlag fl cloneFlag else fl
        | none => fl
      [⟨.addFilter, src, r.gh, fl'⟩, ⟨.addEndpoint, r.gh, src, fl'⟩]

/-- `checkForNamedInterface` (src/helics/core/CoreBroker.cpp:1762-1983). -/
def request (b : Broker) (w : Want) (name : IName) (src : GHandle) (fl : BitVec 16) (isEpt : Bool) : Broker :=
  let b := b.addReconnectable w name src fl
  match b.handles.byName name w.kind with
  | some r => b.send (b.found w r src fl isEpt)
  | none => b.addUnknown w name src fl

/-- `connectInterfaces` (src/helics/core/CoreBroker.cpp:2759-2794). -/
def connect (origin : GHandle) (oFl : BitVec 16) (target : GHandle) (tFl : BitVec 16) (a1 a2 : CAct) : List CMsg :=
  [⟨a1, origin, target, oFl⟩, ⟨a2, target, origin, tFl⟩]

/-- the connections of one list of targets in `findAndNotifyInputTargets` (src/helics/core/CoreBroker.cpp:3071-3090); the record
of the publication, if there is one, has the identifier that was asked for -/
def notifyInps (r : HInfo) (ts : List (GHandle × BitVec 16)) : List CMsg :=
  ts.flatMap fun t => connect r.gh r.flags t.1 t.2 .addSubscriber .addPublisher

/-- `findAndNotifyInputTargets` (src/helics/core/CoreBroker.cpp:3068-3117). -/
def findInputTargets (b : Broker) (r : HInfo) (key : IName) : Broker :=
  let hs := targets b.uInps key
  let b := b.send (notifyInps r hs)
  let b := if hs.isEmpty then b else { b with uInps := clear b.uInps key }
  if b.operating then b.send (notifyInps r (targets b.rInps key)) else b

/-- the connections to waiting subscribers (src/helics/core/CoreBroker.cpp:3123-3130) -/
def notifyPubs (r : HInfo) (ts : List (GHandle × BitVec 16)) : List CMsg :=
  ts.flatMap fun t => connect r.gh t.2 t.1 r.flags .addPublisher .addSubscriber

/-- `findAndNotifyPublicationTargets` (src/helics/core/CoreBroker.cpp:3119-3155). -/
def findPublicationTargets (b : Broker) (r : HInfo) (key : IName) : Broker :=
  let hs := targets b.uPubs key
  let b := b.send (notifyPubs r hs)
  let ls := targets b.links key
  let b := ls.foldl (fun b t => b.request .inp t r.gh 0 false) b
  let b := if hs.isEmpty && ls.isEmpty then b else { b with uPubs := clear b.uPubs key, links := clear b.links key }
  if b.operating then b.send (notifyPubs r (targets b.rPubs key)) else b

/-- the connections to waiting interfaces in `findAndNotifyEndpointTargets` (src/helics/core/CoreBroker.cpp:3160-3176): a requester
that is not in the table is a null pointer -/
def notifyEpts (r : HInfo) (b : Broker) (t : GHandle × BitVec 16) : Broker :=
  match b.handles.findHandle t.1 with
  | none => { b with ub := true }
  | some f =>
    if f.kind ≠ .filter then b.send (connect r.gh t.2 f.gh (Flags.toggleFlag t.2 destTarget) .addEndpoint .addEndpoint)
    else b.send (connect r.gh t.2 f.gh t.2 .addEndpoint .addFilter)

/-- `findAndNotifyEndpointTargets` (src/helics/core/CoreBroker.cpp:3157-3212). -/
def findEndpointTargets (b : Broker) (r : HInfo) (key : IName) : Broker :=
  let hs := targets b.uEpts key
  let b := hs.foldl (notifyEpts r) b
  let ls := targets b.eptLinks key
  let b := ls.foldl (fun b t => b.request .ept t r.gh (Flags.setFlag 0 destTarget) true) b
  let b := if hs.isEmpty && ls.isEmpty then b else { b with uEpts := clear b.uEpts key, eptLinks := clear b.eptLinks key }
  if b.operating then (targets b.rEpts key).foldl (notifyEpts r) b else b

/-- the connections to waiting endpoints in `findAndNotifyFilterTargets` (src/helics/core/CoreBroker.cpp:3217-3230) -/
def notifyFilts (r : HInfo) (ts : List (GHandle × BitVec 16)) : List CMsg :=
  ts.flatMap fun t =>
    let fl := if Flags.checkFlag r.flags cloneFlag then t.2 ||| Flags.make1 cloneFlag else t.2
    connect r.gh fl t.1 fl .addFilter .addEndpoint

/-- flags of the requests made for a filter that was linked before it was registered
(src/helics/core/CoreBroker.cpp:3234-3241,3247-3253) -/
def filtLinkFlags (r : HInfo) (dest : Bool) : BitVec 16 :=
  let fl := if dest then Flags.setFlag r.flags destTarget else r.flags
  if Flags.checkFlag r.flags cloneFlag then Flags.setFlag fl cloneFlag else fl

/-- `findAndNotifyFilterTargets` (src/helics/core/CoreBroker.cpp:3214-3276). -/
def findFilterTargets (b : Broker) (r : HInfo) (key : IName) : Broker :=
  let hs := targets b.uFilts key
  let b := b.send (notifyFilts r hs)
  let ds := targets b.dstFilts key
  let b := ds.foldl (fun b t => b.request .ept t r.gh (filtLinkFlags r true) false) b
  let ss := targets b.srcFilts key
  let b := ss.foldl (fun b t => b.request .ept t r.gh (filtLinkFlags r false) false) b
  let b := if hs.isEmpty && ds.isEmpty && ss.isEmpty then b
    else { b with uFilts := clear b.uFilts key, srcFilts := clear b.srcFilts key, dstFilts := clear b.dstFilts key }
  if b.operating then b.send (notifyFilts r (targets b.uFilts key)) else b

/-- `checkInterfaceCreation`, the test for a duplicate name (src/helics/core/CoreBroker.cpp:2082-2091). -/
def duplicate (b : Broker) (k : IfKind) (name : IName) : Bool :=
  if k = .translator then
    (b.handles.byName name .endpoint).isSome || (b.handles.byName name .input).isSome || (b.handles.byName name .publication).isSome
  else (b.handles.byName name k).isSome

/-- the notifications after a registration, per kind (src/helics/core/CoreBroker.cpp:2149,2168,2200,2220,2252-2254,2274-2275) -/
def notify (b : Broker) (r : HInfo) : Broker :=
  match r.kind with
  | .publication => b.findPublicationTargets r r.key
  | .input => b.findInputTargets r r.key
  | .endpoint => b.findEndpointTargets r r.key
  | .filter => b.findFilterTargets r r.key
  | .translator => ((b.findInputTargets r r.key).findPublicationTargets r r.key).findEndpointTargets r r.key
  | .sink => (b.findInputTargets r r.key).findEndpointTargets r r.key
  | .unknown => b

/-- `addPublication`, `addInput`, `addEndpoint`, `addFilter`, `addTranslator`, `addDataSink`
(src/helics/core/CoreBroker.cpp:2133-2277) in the root broker; second component: registered. -/
def register (b : Broker) (g : GHandle) (k : IfKind) (name : IName) (fl : BitVec 16) : Broker × Bool :=
  if b.duplicate k name then (b, false)
  else
    let r := b.handles.addHandleId g k name fl
    let b' := { b with handles := r.1 }
    if r.2 then (b'.notify { gh := g, kind := k, key := b.handles.actKey k name, flags := fl }, true) else (b', false)

/-- `CMD_DATA_LINK` in `linkInterfaces` (src/helics/core/CoreBroker.cpp:2282-2305). -/
def dataLink (b : Broker) (source target : IName) : Broker :=
  match b.handles.byName source .publication with
  | some p => b.request .inp target p.gh 0 false
  | none =>
    match b.handles.byName target .input with
    | none => { b with links := b.links ++ [(source, target)] }
    | some i => b.request .pub source i.gh 0 false

/-- `CMD_ENDPOINT_LINK` in `linkInterfaces` (src/helics/core/CoreBroker.cpp:2306-2332). -/
def endpointLink (b : Broker) (source target : IName) : Broker :=
  match b.handles.byName source .endpoint with
  | some e => b.request .ept target e.gh (Flags.setFlag 0 destTarget) true
  | none =>
    match b.handles.byName target .endpoint with
    | none => { b with eptLinks := b.eptLinks ++ [(source, target)] }
    | some t => b.request .ept source t.gh 0 true

/-- `CMD_FILTER_LINK` in `linkInterfaces` (src/helics/core/CoreBroker.cpp:2333-2366); `dest`: a destination filter. -/
def filterLink (b : Broker) (filt ept : IName) (dest : Bool) : Broker :=
  let fl : BitVec 16 := if dest then Flags.setFlag 0 destTarget else 0
  match b.handles.byName filt .filter with
  | some f => b.request .ept ept f.gh (if Flags.checkFlag f.flags cloneFlag then Flags.setFlag fl cloneFlag else fl) false
  | none =>
    match b.handles.byName ept .endpoint with
    | none => if dest then { b with dstFilts := b.dstFilts ++ [(filt, ept)] } else { b with srcFilts := b.srcFilts ++ [(filt, ept)] }
    | some e => b.request .filt filt e.gh fl false

/-- `hasUnknowns` (src/helics/core/UnknownHandleManager.cpp:204-209). -/
def hasUnknowns (b : Broker) : Bool :=
  !(b.uPubs.isEmpty && b.uEpts.isEmpty && b.uInps.isEmpty && b.uFilts.isEmpty && b.links.isEmpty && b.eptLinks.isEmpty &&
    b.dstFilts.isEmpty && b.srcFilts.isEmpty)

/-- `hasRequiredUnknowns` (src/helics/core/UnknownHandleManager.cpp:228-238). -/
def hasRequiredUnknowns (b : Broker) : Bool :=
  b.uPubs.any (fun p => Flags.checkFlag p.2.2 requiredFlag) || b.uInps.any (fun p => Flags.checkFlag p.2.2 requiredFlag) ||
  b.uEpts.any (fun p => Flags.checkFlag p.2.2 requiredFlag) || b.uFilts.any (fun p => Flags.checkFlag p.2.2 requiredFlag)

end Broker
end Verif
