/-!
# Registration and initialization in brokers and cores

Models the part of `src/helics/core/CoreBroker.cpp` (a broker: registration of federates and
brokers, requests and grants of initialization, disconnection of children) and of
`src/helics/core/CommonCore.cpp` (a core: registration of its federates, requests and grants of
initialization) that decides when a federation starts.

Simplifications common to the whole file:
* routes are not modelled: a message is "sent to the parent", "sent to the child with this name"
  or "sent towards this id" (`Dest`);
* only the fields and flags of a command which this code reads are kept (`Msg`);
* logging, profiling, time barriers, queries and the time coordinator are left out;
* the `DualMappedVector` tables are lists; searching by name finds the (unique) entry of that name,
  searching by id the first entry of that id.
-/
namespace Verif.Init

/-- `ConnectionState`, CoreBroker.hpp:41-48 -/
inductive Conn
  | connected | initRequested | operating | error | requestDisconnect | disconnected
deriving DecidableEq, Repr

/-- the numeric values of `ConnectionState`, CoreBroker.hpp:41-48 -/
def Conn.val : Conn → Nat
  | .connected => 0
  | .initRequested => 1
  | .operating => 2
  | .error => 40
  | .requestDisconnect => 48
  | .disconnected => 50

/-- `BrokerState`, BrokerBase.hpp:119-132 (the states before `CONNECTED` are one state here: the
broker does not process the modelled commands in them) -/
inductive BState
  | connecting | connected | initializing | operating | connectedError | terminating
  | terminatingError | terminated | errored
deriving DecidableEq, Repr

/-- the numeric values of `BrokerState`, BrokerBase.hpp:119-132 -/
def BState.val : BState → Int
  | .connecting => -4
  | .connected => -3
  | .initializing => -1
  | .operating => 0
  | .connectedError => 3
  | .terminating => 4
  | .terminatingError => 5
  | .terminated => 6
  | .errored => 7

/-- `BrokerBase::setBrokerState`, BrokerBase.cpp:1094-1128: the state stored when `new` is asked for
in state `cur` -/
def BState.set (cur new : BState) : BState :=
  match cur with
  | .errored => .errored
  | .connectedError =>
    if new = .terminating then .terminatingError
    else if new = .terminated ∨ new = .errored then .errored
    else .connectedError
  | .terminatingError => if new = .terminated ∨ new = .errored then .errored else .terminatingError
  | _ =>
    if new = .errored ∧ BState.connecting.val < cur.val ∧ cur.val < BState.terminating.val then
      .connectedError
    else new

/-- `invalid_global_broker_id`/`invalid_global_fed_id`, GlobalFederateId.hpp:63, 127 -/
def invalidId : Int := -2010000000
/-- `gInvalidInterfaceHandle` counts as invalid too (`isValid`, GlobalFederateId.hpp:51-54);
its value is in the `detail` namespace of the same header -/
def invalidHandle : Int := -1700000000
/-- `parent_broker_id` -/
def parentId : Int := 0
/-- `gRootBrokerID` -/
def rootId : Int := 1
/-- `gGlobalFederateIdShift`, GlobalFederateId.hpp:22 -/
def fedShift : Int := 131072
/-- `gGlobalBrokerIdShift`, GlobalFederateId.hpp:24 -/
def brkShift : Int := 1879048192
/-- `gGlobalPriorityBlockSize`, GlobalFederateId.hpp:20-26 -/
def priorityBlock : Int := 100000000

/-- `GlobalBrokerId::isValid`, GlobalFederateId.hpp:51-54 -/
def validId (i : Int) : Bool := decide (i ≠ invalidId ∧ i ≠ invalidHandle)

/-- `GlobalBrokerId::localIndex`, GlobalFederateId.hpp:55-58 -/
def localIndex (i : Int) : Int := if i ≥ brkShift then i - brkShift else i

/-- the error codes of refused registrations, sent in `messageID` (CoreBroker.cpp:328-353, 519-526) -/
inductive Refusal
  | maxFederates | alreadyInit | terminating | duplicateFedName | duplicateFedId
  | maxBrokers | duplicateBrkName | badKey | connectionTest
deriving DecidableEq, Repr

/-- the commands this part of the code exchanges -/
inductive Msg
  /-- `CMD_REG_FED`; `extra` is the requested id of a child federate, `counter` the index group -/
  | regFed (src : Int) (name : String) (nonCounting observer reentrant child : Bool)
      (extra counter : Int)
  /-- `CMD_REG_BROKER`; `keyOk` is the outcome of `verifyBrokerKey`, `resend` that `counter > 0` -/
  | regBrk (src : Int) (name : String) (core observer test resend keyOk : Bool)
  /-- `CMD_FED_ACK`, with the refusal if `error_flag` is set -/
  | fedAck (src : Int) (name : String) (dest : Int) (err : Option Refusal)
  /-- `CMD_BROKER_ACK`, with the refusal if `error_flag` is set -/
  | brkAck (src : Int) (name : String) (dest : Int) (err : Option Refusal)
  /-- `CMD_INIT`, `iter` is `iteration_requested_flag` -/
  | init (src : Int) (iter : Bool)
  /-- `CMD_INIT_NOT_READY` -/
  | notReady (src : Int)
  /-- `CMD_INIT_GRANT` with `iteration_requested_flag`, `observer_flag`, `dynamic_join_flag` -/
  | grant (dest : Int) (iter observer dyn : Bool)
  /-- `CMD_DISCONNECT` addressed to the receiving broker as parent -/
  | disconnect (src : Int)
  /-- `CMD_DISCONNECT_CORE`/`CMD_DISCONNECT_BROKER`: a disconnection forwarded from below -/
  | discNode (src : Int)
  /-- `CMD_DISCONNECT_FED` -/
  | discFed (src : Int)
  /-- `CMD_DISCONNECT_CORE_ACK`/`CMD_DISCONNECT_BROKER_ACK` -/
  | discAck (dest : Int)
  /-- `CMD_BROADCAST_DISCONNECT` -/
  | bcastDisc (src : Int)
  /-- `CMD_PRIORITY_DISCONNECT` -/
  | prioDisc (src : Int)
  /-- `CMD_LOCAL_ERROR` or `CMD_ERROR` from below or above -/
  | localError (src : Int)
deriving DecidableEq, Repr

/-- where a message is transmitted to -/
inductive Dest
  | parent
  | child (name : String)
  | node (id : Int)
deriving DecidableEq, Repr

abbrev Sent := List (Dest × Msg)

/-- `BasicFedInfo`, CoreBroker.hpp:53-66 (without the route) -/
structure FedInfo where
  name : String
  gid : Int := invalidId
  parent : Int
  state : Conn := .connected
  nonCounting : Bool := false
  observer : Bool := false
  dyn : Bool := false
  reentrant : Bool := false
deriving DecidableEq, Repr

/-- `BasicBrokerInfo`, CoreBroker.hpp:68-88 (the fields used here) -/
structure BrkInfo where
  name : String
  gid : Int := invalidId
  parent : Int
  state : Conn := .connected
  core : Bool := false
  nonLocal : Bool := false
  observer : Bool := false
  iterating : Bool := false
deriving DecidableEq, Repr

/-- the configured limits of a broker: BrokerBase.hpp:51-61, CoreBroker.hpp (`dynamicFederation`,
`requiredFederates`, `isRootc`, `terminate_on_error` is taken to be off) -/
structure Cfg where
  isRoot : Bool := true
  name : String := "root"
  minFed : Int := 1
  maxFed : Int := 2147483647
  minBrk : Int := 0
  maxBrk : Int := 2147483647
  minChild : Int := 0
  minLocalBrk : Int := 0
  minLocalFed : Int := 0
  required : List String := []
  dyn : Bool := false
  globalDisconnect : Bool := false
deriving DecidableEq, Repr

/-- the registration and initialization state of a `CoreBroker` after `CMD_BROKER_SETUP` -/
structure Broker where
  cfg : Cfg := {}
  /-- `global_broker_id_local` -/
  id : Int := rootId
  /-- `higher_broker_id` -/
  higher : Int := invalidId
  state : BState := .connected
  feds : List FedInfo := []
  brks : List BrkInfo := []
  /-- `initIterating` -/
  iterating : Bool := false
  /-- `delayTransmitQueue` -/
  delayed : List Msg := []
  /-- the connections `executeInitializationOperations` would report as unmatched or as missing
  required ones (CoreBroker.cpp:2967-3037); decided by the interface tables, modelled in
  `Model.Connect` -/
  unmatched : Bool := false
deriving DecidableEq, Repr

/-- `CoreBroker::getBrokerById`, CoreBroker.cpp:163-183, as an index into `mBrokers`: the root takes
the number in the id as the index, the others search -/
def Broker.find (b : Broker) (id : Int) : Option Nat :=
  if b.cfg.isRoot then
    if 0 ≤ localIndex id ∧ localIndex id < b.brks.length then some (localIndex id).toNat else none
  else b.brks.findIdx? (fun k => k.gid = id)

/-- the entry found by `getBrokerById`, CoreBroker.cpp:163-183 -/
def Broker.get (b : Broker) (id : Int) : Option BrkInfo :=
  match b.find id with
  | some i => b.brks[i]?
  | none => none

/-- change the entry found by `getBrokerById` (assignments through the returned pointer) -/
def Broker.upd (b : Broker) (id : Int) (f : BrkInfo → BrkInfo) : Broker :=
  match b.find id with
  | some i => { b with brks := b.brks.modify i f }
  | none => b

/-- `CoreBroker::getAllConnectionState`, CoreBroker.cpp:4707-4719, as the numeric value -/
def Broker.allConn (b : Broker) : Nat :=
  let loc := b.brks.filter (fun k => !k.nonLocal)
  if loc.length > 0 then loc.foldl (fun r k => min k.state.val r) Conn.disconnected.val
  else Conn.connected.val

/-- `CoreBroker::getCountableFederates`, CoreBroker.cpp:4721-4730 -/
def Broker.countable (b : Broker) : Nat :=
  b.feds.foldl (fun n f => if f.nonCounting then n else n + 1) 0

/-- the loop counting children, CoreBroker.cpp:4741-4751 -/
def Broker.children (b : Broker) : Nat :=
  b.brks.foldl (fun n k => if k.parent = b.id then n + 1 else n) 0

/-- the loop counting local brokers, CoreBroker.cpp:4752-4762 -/
def Broker.localBrks (b : Broker) : Nat :=
  b.brks.foldl (fun n k => if k.parent = b.id ∧ k.core = false then n + 1 else n) 0

/-- the loop counting local federates, CoreBroker.cpp:4763-4775 -/
def Broker.localFeds (b : Broker) : Nat :=
  b.feds.foldl (fun n f =>
    if (!f.nonCounting &&
        match b.get f.parent with
        | some k => decide (k.parent = b.id) && k.core
        | none => false) = true then n + 1 else n) 0

/-- `CoreBroker::allInitReady`, CoreBroker.cpp:4732-4787 -/
def Broker.ready (b : Broker) : Bool :=
  if (b.feds.length : Int) < b.cfg.minFed then false
  else if (b.brks.length : Int) < b.cfg.minBrk then false
  else if b.cfg.minChild > 0 ∧ (b.children : Int) < b.cfg.minChild then false
  else if b.cfg.minLocalBrk > 0 ∧ (b.localBrks : Int) < b.cfg.minLocalBrk then false
  else if b.cfg.minLocalFed > 0 ∧ (b.localFeds : Int) < b.cfg.minLocalFed then false
  else if b.cfg.required.any (fun r => r ≠ "" ∧ b.feds.all (fun f => f.name ≠ r)) then false
  else if b.allConn ≥ Conn.initRequested.val then decide ((b.countable : Int) ≥ b.cfg.minFed)
  else false

/-- `CoreBroker::isOpenToNewFederates`, CoreBroker.cpp:312-327 (`haltOperations` off) -/
def Broker.isOpen (b : Broker) : Bool :=
  if b.state.val > BState.operating.val then false
  else if b.cfg.maxFed = 2147483647 ∨ (b.countable : Int) < b.cfg.maxFed then
    if b.cfg.dyn then true else decide (b.state.val < BState.operating.val)
  else false

/-- `CoreBroker::broadcast`, CoreBroker.cpp:2706-2714 -/
def Broker.broadcast (b : Broker) (m : Int → Msg) : Sent :=
  (b.brks.filter (fun k => !k.nonLocal && decide (k.state.val < Conn.disconnected.val))).map
    (fun k => (.child k.name, m k.gid))

/-- `CMD_INIT_NOT_READY` to the parent, CoreBroker.cpp:404-409, 559-563 -/
def Broker.retract (b : Broker) : Sent := [(.parent, .notReady b.id)]

/-- a refused federate registration, `sendFedErrorAck` CoreBroker.cpp:518-526 -/
def Broker.refuseFed (b : Broker) (src : Int) (name : String) (r : Refusal) : Sent :=
  [(.node src, .fedAck b.id name invalidId (some r))]

/-- a refused broker registration, `sendBrokerErrorAck` CoreBroker.cpp:329-361 (the reply goes out on
a temporary route if the sender has none) -/
def Broker.refuseBrk (b : Broker) (name : String) (r : Refusal) : Sent :=
  [(.child name, .brkAck b.id name invalidId (some r))]

/-- the id a root broker assigns to the federate at index `n`, CoreBroker.cpp:620-629 -/
def assignId (n : Nat) (counter : Int) : Int :=
  if 0 < counter ∧ counter ≤ 16 then (n : Int) + fedShift + counter * priorityBlock
  else (n : Int) + fedShift

/-- the end of `fedRegistration`, CoreBroker.cpp:634-694: pass the registration to the parent, or
acknowledge it -/
def Broker.answerFed (b : Broker) (src : Int) (name : String)
    (nonCounting observer reentrant child : Bool) (extra counter gid : Int) : Broker × Sent :=
  if b.cfg.isRoot = false then
    if validId b.id then
      (b, [(.parent, .regFed b.id name nonCounting observer reentrant child extra counter)])
    else
      ({ b with delayed := b.delayed ++
          [.regFed src name nonCounting observer reentrant child extra counter] }, [])
  else (b, [(.node src, .fedAck b.id name gid none)])

/-- `CoreBroker::fedRegistration`, CoreBroker.cpp:546-695 -/
def Broker.fedReg (b : Broker) (src : Int) (name : String)
    (nonCounting observer reentrant child : Bool) (extra counter : Int) : Broker × Sent :=
  if nonCounting = false ∧ (b.countable : Int) ≥ b.cfg.maxFed then
    (b, b.refuseFed src name .maxFederates)
  else if b.state.val > BState.operating.val then (b, b.refuseFed src name .terminating)
  else if b.state = .operating ∧ ¬(b.cfg.dyn = true ∨ nonCounting = true ∨ observer = true) then
    (b, b.refuseFed src name .alreadyInit)
  else
    let pre : Sent :=
      if b.state.val < BState.operating.val ∧ nonCounting = false ∧ b.ready = true then b.retract
      else []
    let dynFed : Bool := decide (b.state = .operating)
    match b.feds.find? (fun f => f.name = name) with
    | some f =>
      if dynFed = true ∧ reentrant = true ∧ f.reentrant = true then
        let b1 : Broker := { b with feds := b.feds.map (fun g : FedInfo =>
          if g.name = name then { g with parent := src, state := .connected } else g) }
        let (b2, s) := b1.answerFed src name nonCounting observer reentrant child extra counter f.gid
        (b2, pre ++ s)
      else (b, pre ++ b.refuseFed src name .duplicateFedName)
    | none =>
      let gid : Int :=
        if child then extra
        else if b.cfg.isRoot then assignId b.feds.length counter
        else invalidId
      let entry : FedInfo :=
        { name := name, gid := gid, parent := src, nonCounting := nonCounting,
          observer := observer, dyn := dynFed, reentrant := reentrant }
      let b1 := { b with feds := b.feds ++ [entry] }
      if child = true ∧ b.feds.any (fun f => f.gid = extra) then
        (b1, pre ++ b.refuseFed src name .duplicateFedId)
      else
        let (b2, s) := b1.answerFed src name nonCounting observer reentrant child extra counter gid
        (b2, pre ++ s)

/-- `CoreBroker::brokerRegistration`, CoreBroker.cpp:363-516 -/
def Broker.brkReg (b : Broker) (src : Int) (name : String)
    (core observer test resend keyOk : Bool) : Broker × Sent :=
  match (if resend then b.brks.find? (fun k => k.name = name) else none) with
  | some k => (b, [(.child name, .brkAck b.id name k.gid none)])
  | none =>
    if (b.brks.length : Int) ≥ b.cfg.maxBrk then (b, b.refuseBrk name .maxBrokers)
    else if b.state.val > BState.operating.val then (b, b.refuseBrk name .terminating)
    else if b.state = .operating ∧ observer = false ∧ b.cfg.dyn = false then
      (b, b.refuseBrk name .alreadyInit)
    else
      let pre : Sent :=
        if b.state.val < BState.operating.val ∧ b.ready = true then b.retract else []
      if keyOk = false then (b, pre ++ b.refuseBrk name .badKey)
      else if test then (b, pre ++ b.refuseBrk name .connectionTest)
      else if b.brks.any (fun k => k.name = name) then
        (b, pre ++ b.refuseBrk name .duplicateBrkName)
      else
        let direct : Bool := validId src = false ∨ src = parentId
        let gid : Int := if b.cfg.isRoot then (b.brks.length : Int) + brkShift else invalidId
        let entry : BrkInfo :=
          { name := name, gid := gid, parent := if direct then b.id else src,
            core := core, nonLocal := !direct, observer := observer }
        let b1 := { b with brks := b.brks ++ [entry] }
        if b.cfg.isRoot = false then
          if validId b.id = true ∧ b.id ≠ parentId then
            (b1, pre ++ [(.parent, .regBrk b.id name core observer test resend keyOk)])
          else
            ({ b1 with delayed := b.delayed ++
                [.regBrk src name core observer test resend keyOk] }, pre)
        else (b1, pre ++ [(.child name, .brkAck b.id name gid none)])

/-- change the source of a queued registration, CoreBroker.cpp:948 -/
def Msg.withSrc (i : Int) : Msg → Msg
  | .regFed _ n a o r c e k => .regFed i n a o r c e k
  | .regBrk _ n c o t r k => .regBrk i n c o t r k
  | m => m

/-- `CMD_FED_ACK` at a broker which is not the root, CoreBroker.cpp:736-765 (an unknown name makes
the code read through an end iterator at line 758; here the entry is added and nothing else) -/
def Broker.fedAck (b : Broker) (m : Msg) (src : Int) (name : String) (dest : Int) : Broker × Sent :=
  match b.feds.find? (fun f => f.name = name) with
  | some f =>
    ({ b with feds := b.feds.map (fun g =>
        if g.name = name ∧ validId g.gid = false then { g with gid := dest } else g) },
      [(.node f.parent, m)])
  | none => ({ b with feds := b.feds ++ [{ name := name, gid := dest, parent := src }] }, [])

/-- `CMD_BROKER_ACK` at a broker which is not the root, CoreBroker.cpp:766-826 -/
def Broker.brkAck (b : Broker) (src : Int) (name : String) (dest : Int) (err : Option Refusal) :
    Broker × Sent :=
  if name = b.cfg.name then
    match err with
    | some _ => (b, [])
    | none =>
      ({ b with
          id := dest, higher := src, delayed := ([] : List Msg)
          brks := b.brks.map (fun k => if k.nonLocal then k else { k with parent := dest }) },
        b.delayed.map (fun m => (.parent, m.withSrc dest)))
  else
    match b.brks.find? (fun k => k.name = name) with
    | some k =>
      if k.gid = dest then (b, [])
      else
        ({ b with brks := b.brks.map (fun g => if g.name = name then { g with gid := dest } else g) },
          [(.child name, .brkAck b.id name dest err)])
    | none =>
      ({ b with brks := b.brks ++ [{ name := name, gid := dest, parent := invalidId }] }, [])

/-- `CoreBroker::executeInitializationOperations(true)`, CoreBroker.cpp:2845-2862: let those go on
which asked for an iteration -/
def Broker.iterate (b : Broker) : Broker × Sent :=
  let go := fun (k : BrkInfo) =>
    !k.nonLocal && decide (k.state.val < Conn.disconnected.val) && k.iterating
  ({ b with
      state := b.state.set .connected,
      brks := b.brks.map (fun k =>
        if go k then { k with iterating := false, state := .connected } else k),
      iterating := false },
    (b.brks.filter go).map (fun k => (.child k.name, .grant k.gid true false false)))

/-- `CoreBroker::executeInitializationOperations(false)`, CoreBroker.cpp:2863-3066: start the
federation, unless connections are missing (then the children get an error and a disconnect, which
is not modelled further) -/
def Broker.start (b : Broker) : Broker × Sent :=
  if b.unmatched then (b, b.broadcast (fun _ => .localError b.id))
  else
    ({ b with state := b.state.set .operating },
      b.broadcast (fun g => .grant g false false false))

/-- `CMD_INIT` in `processInitCommand`, CoreBroker.cpp:1596-1652 -/
def Broker.onInit (b : Broker) (src : Int) (iter : Bool) : Broker × Sent :=
  match b.get src with
  | none => (b, [])
  | some k =>
    let b := b.upd src (fun k =>
      if k.state = .connected then { k with state := .initRequested } else k)
    if (b.cfg.dyn = true ∨ k.observer = true) ∧ b.state.val ≥ BState.operating.val then
      if b.cfg.isRoot then
        (b, [(.child k.name, .grant src iter k.observer (!k.observer))])
      else (b, [(.parent, .init src iter)])
    else
      let b : Broker := if iter then
          let b1 := b.upd src (fun k => { k with iterating := true })
          { b1 with iterating := true }
        else b
      if b.ready then
        if b.cfg.isRoot then
          if b.iterating then b.iterate else b.start
        else (b, [(.parent, .init b.id (iter || b.iterating))])
      else (b, [])

/-- `CMD_INIT_NOT_READY` in `processInitCommand`, CoreBroker.cpp:1653-1669 -/
def Broker.onNotReady (b : Broker) (src : Int) : Broker × Sent :=
  if b.ready = true ∧ b.cfg.isRoot = true then (b, [])
  else
    (b.upd src (fun k => { k with state := .connected, iterating := false }),
      if b.ready then [(.parent, .notReady src)] else [])

/-- `CMD_INIT_GRANT` in `processInitCommand`, CoreBroker.cpp:1670-1692; a grant for an observer or a
late joiner is routed on to its destination -/
def Broker.onGrant (b : Broker) (dest : Int) (iter observer dyn : Bool) : Broker × Sent :=
  if observer = false ∧ dyn = false then
    if iter then b.iterate
    else
      ({ b with state := b.state.set .operating },
        b.broadcast (fun g => .grant g false false false))
  else (b, [(.node dest, .grant dest iter observer dyn)])

/-- `CoreBroker::markAsDisconnected`, CoreBroker.cpp:3517-3546.  The recursion follows the
parent-to-child relation; `fuel` bounds its depth (a chain of brokers cannot be longer than the
table) -/
def Broker.markGone : Nat → Broker → Int → Broker
  | 0, b, _ => b
  | fuel + 1, b, id =>
    let b1 := (List.range b.brks.length).foldl (fun (b : Broker) i =>
      match b.brks[i]? with
      | none => b
      | some k =>
        let b := if k.gid = id ∧ k.state ≠ .error then
            { b with brks := b.brks.modify i (fun k => { k with state := .disconnected }) } else b
        if k.parent = id ∧ k.state ≠ .error then
          Broker.markGone fuel
            { b with brks := b.brks.modify i (fun k => { k with state := .disconnected }) } k.gid
        else b) b
    { b1 with feds := b1.feds.map (fun f =>
        if f.parent = id ∧ f.state ≠ .error then { f with state := .disconnected } else f) }

/-- `CoreBroker::disconnectBroker`, CoreBroker.cpp:3548-3567 -/
def Broker.dropBrk (b : Broker) (k : BrkInfo) : Broker × Sent :=
  let b1 := Broker.markGone (b.brks.length + 1) b k.gid
  (b1, if b1.state.val < BState.operating.val ∧ b1.cfg.isRoot = true then
      b1.broadcast (fun _ => .bcastDisc k.gid) else [])

/-- `CMD_DISCONNECT` to the broker as a parent: `processBrokerDisconnect`, CoreBroker.cpp:3368-3450.
The acknowledgements are kept; `CMD_STOP`, route removal and `timeCoord` are not -/
def Broker.onDisconnect (b : Broker) (src : Int) : Broker × Sent :=
  if b.cfg.isRoot = false ∧ src = b.higher then
    (b, b.broadcast (fun _ => .disconnect b.id))
  else
    match b.get src with
    | none =>
      if b.allConn ≥ Conn.disconnected.val ∧ b.cfg.isRoot = false then
        (b, [(.parent, .disconnect b.id)]) else (b, [])
    | some k =>
      let (b1, s) := b.dropBrk k
      let ack : Sent :=
        if k.nonLocal = false ∧ b.cfg.globalDisconnect = false then
          [(.child k.name, .discAck k.gid)] else []
      if b1.allConn ≥ Conn.disconnected.val then
        if b.cfg.isRoot = false then (b1, s ++ [(.parent, .disconnect b.id)])
        else if k.nonLocal = false ∧ b.cfg.globalDisconnect = true then
          (b1, s ++ b1.brks.map (fun g => (.child g.name, .discAck g.gid)))
        else (b1, s ++ ack)
      else
        (b1, s ++ ack ++
          if b.cfg.isRoot = false ∧ b1.state.val < BState.operating.val then
            [(.parent, .discNode src)] else [])

/-- a disconnection forwarded from below: `processDisconnectCommand`, CoreBroker.cpp:3471-3479 -/
def Broker.onDiscNode (b : Broker) (src : Int) : Broker × Sent :=
  match b.get src with
  | none => (b, [])
  | some k =>
    let (b1, s) := b.dropBrk k
    (b1, s ++ if b.cfg.isRoot = false then [(.parent, .discNode src)] else [])

/-- `CMD_DISCONNECT_FED`, CoreBroker.cpp:1309-1325 (removing the handles of a reentrant federate and
its pending connections is not modelled here) -/
def Broker.onDiscFed (b : Broker) (src : Int) : Broker × Sent :=
  let hit := (b.feds.find? (fun f => f.gid = src)).map (·.name)
  let b1 := { b with feds := b.feds.map (fun f =>
    if some f.name = hit then { f with state := .disconnected } else f) }
  (b1,
    if b.cfg.isRoot = false then [(.parent, .discFed src)]
    else if b.state.val < BState.operating.val then b1.broadcast (fun _ => .bcastDisc src) else [])

/-- `CMD_PRIORITY_DISCONNECT`, CoreBroker.cpp:827-838 -/
def Broker.onPrioDisc (b : Broker) (src : Int) : Broker × Sent :=
  let b1 := b.upd src (fun k => { k with state := .disconnected })
  (b1, if b1.allConn ≥ Conn.disconnected.val ∧ b.cfg.isRoot = false then
      [(.parent, .prioDisc b.id)] else [])

/-- `CMD_LOCAL_ERROR`/`CMD_ERROR`: `processError`, CoreBroker.cpp:3278-3332 (`terminate_on_error`
off, the command addressed to the root) -/
def Broker.onError (b : Broker) (src : Int) : Broker × Sent :=
  if src = b.id ∨ src = parentId ∨ src = rootId then
    let b1 := { b with state := b.state.set .errored }
    (b1, b1.broadcast (fun _ => .localError src) ++
      if src = b.id ∧ b.cfg.isRoot = false then [(.parent, .localError src)] else [])
  else
    let b1 := match b.find src with
      | some _ => b.upd src (fun k => { k with state := .error })
      | none =>
        let hit := (b.feds.find? (fun f => f.gid = src)).map (·.name)
        { b with feds := b.feds.map (fun f =>
            if some f.name = hit then { f with state := .error } else f) }
    (b1, if b.cfg.isRoot = false then [(.parent, .localError src)] else [])

/-- one command processed by a broker: `processPriorityCommand` CoreBroker.cpp:697-865,
`processCommand` 1130-1340, `processInitCommand` 1593-1697, `processDisconnectCommand` 3452-3483.
Commands a broker of this kind does not act on are ignored -/
def Broker.handle (b : Broker) : Msg → Broker × Sent
  | .regFed src name nc o r c e k => b.fedReg src name nc o r c e k
  | .regBrk src name c o t r k => b.brkReg src name c o t r k
  | .fedAck src name dest err =>
    if b.cfg.isRoot then (b, []) else b.fedAck (.fedAck src name dest err) src name dest
  | .brkAck src name dest err => if b.cfg.isRoot then (b, []) else b.brkAck src name dest err
  | .init src iter => b.onInit src iter
  | .notReady src => b.onNotReady src
  | .grant dest iter o d => if b.cfg.isRoot then (b, []) else b.onGrant dest iter o d
  | .disconnect src => b.onDisconnect src
  | .discNode src => b.onDiscNode src
  | .discFed src => b.onDiscFed src
  | .discAck _ => (b, [])
  | .bcastDisc _ => (b, [])
  | .prioDisc src => b.onPrioDisc src
  | .localError src => b.onError src

/-! ## The core -/

/-- what a core keeps for one of its federates: the entry in `loopFederates` and the members of
`FederateState` used by initialization (`init_transmitted`, `initRequested`, `initIterating`,
`global_id`), and what the federate was told -/
structure CFed where
  name : String
  /-- `global_id`, set by `CMD_FED_ACK` -/
  gid : Option Int := none
  /-- `init_transmitted`: the core has processed the federate's request -/
  asked : Bool := false
  /-- `initRequested`: the federate is inside `enterInitializingMode` -/
  calling : Bool := false
  /-- `initIterating` -/
  iterating : Bool := false
  /-- `CMD_INIT_GRANT` was passed to the federate, which leaves the created state when it processes
  it -/
  started : Bool := false
  /-- `loopFederates` state `DISCONNECTED` -/
  gone : Bool := false
deriving DecidableEq, Repr

/-- the registration and initialization state of a `CommonCore` -/
structure Core where
  name : String
  /-- `global_broker_id_local`, `parent_broker_id` until the acknowledgement -/
  id : Int := parentId
  state : BState := .connected
  feds : List CFed := []
  minFed : Int := 1
  minChild : Int := 0
  required : List String := []
  dyn : Bool := false
  /-- `delayInitCounter` -/
  delay : Int := 0
  /-- `initIterations` -/
  iterations : Bool := false
  /-- `delayTransmitQueue` -/
  delayed : List Msg := []
deriving DecidableEq, Repr

/-- `CommonCore::allInitReady`, CommonCore.cpp:575-596 -/
def Core.ready (c : Core) : Bool :=
  if c.delay > 0 then false
  else if (c.feds.length : Int) < c.minFed ∨ (c.feds.length : Int) < c.minChild then false
  else if c.required.any (fun r => r ≠ "" ∧ c.feds.all (fun f => f.name ≠ r)) then false
  else c.feds.all (·.asked)

/-- what happens at a core: calls of the API by its federates, and commands processed -/
inductive CoreEv
  /-- `registerFederate` followed by `CMD_REG_FED` -/
  | register (name : String) (observer reentrant : Bool) (group : Int)
  /-- the call `enterInitializingMode`, up to placing `CMD_INIT` in the queue -/
  | callInit (name : String) (iter : Bool)
  /-- `CMD_INIT` of a federate taken from the queue -/
  | init (name : String) (iter : Bool)
  /-- `CMD_DISCONNECT` of a federate -/
  | leave (name : String)
  /-- `CMD_CORE_CONFIGURE` with `ENABLE_INIT_ENTRY` -/
  | enableInit
  /-- `setFlagOption(DELAY_INIT_ENTRY)`, CommonCore.cpp:1168-1175 -/
  | delayInit
  /-- the core is closed: `CMD_USER_DISCONNECT` -/
  | close
  /-- a command from the broker -/
  | recv (m : Msg)
deriving DecidableEq, Repr

/-- change the entry of a federate -/
def Core.upd (c : Core) (name : String) (f : CFed → CFed) : Core :=
  { c with feds := c.feds.map (fun g => if g.name = name then f g else g) }

/-- ask the parent: `transitionBrokerState(CONNECTED, INITIALIZING)` and `CMD_INIT`,
CommonCore.cpp:3298-3311, 4673-4687, 4944-4955 -/
def Core.ask (c : Core) (iter : Bool) : Core × Sent :=
  if c.state = .connected then
    ({ c with state := .initializing }, [(.parent, .init c.id iter)])
  else (c, [])

/-- `registerFederate` CommonCore.cpp:766-889 and `CMD_REG_FED` 3222-3240, as one step.  The call
waits until the core is registered (`waitCoreRegistration` 5236-5274), so it has no effect before.  A
name in use is refused (the reentrant re-registration of a dynamic federation is not modelled) -/
def Core.register (c : Core) (name : String) (observer reentrant : Bool) (group : Int) :
    Core × Sent :=
  if c.id = parentId then (c, [])
  else if c.state.val ≥ BState.operating.val ∧ c.dyn = false then (c, [])
  else if c.feds.any (fun f => f.name = name) then (c, [])
  else
    ({ c with feds := c.feds ++ [{ name := name }] },
      [(.parent, .regFed c.id name false observer reentrant false 0 group)])

/-- is the call of `enterInitializingMode` accepted: the federate is registered, still in the created
state and not already inside the call (CommonCore.cpp:653-698) -/
def Core.canCall (c : Core) (name : String) : Bool :=
  c.feds.any (fun f => decide (f.name = name) && !f.started && !f.calling && f.gid.isSome)

/-- `CommonCore::enterInitializingMode`, CommonCore.cpp:651-717: what the calling thread stores
before `CMD_INIT` is queued -/
def Core.callInit (c : Core) (name : String) (iter : Bool) : Core :=
  if c.canCall name then
    { c.upd name (fun f => { f with calling := true, iterating := f.iterating || iter }) with
      iterations := c.iterations || iter }
  else c

/-- `CMD_INIT` of a federate, CommonCore.cpp:4664-4688 -/
def Core.onInit (c : Core) (name : String) (iter : Bool) : Core × Sent :=
  if c.feds.any (fun f => f.name = name) then
    let c := c.upd name (fun f => { f with asked := true })
    if c.ready then
      if c.state = .connected then c.ask (iter || c.iterations)
      else if c.dyn then (c, [(.parent, .init c.id iter)])
      else (c, [])
    else (c, [])
  else (c, [])

/-- `CMD_INIT_GRANT`, CommonCore.cpp:4690-4738 -/
def Core.onGrant (c : Core) (iter observer dyn : Bool) : Core :=
  if iter then
    if c.iterations ∧ c.state = .initializing then
      { c with
        iterations := false, state := .connected,
        feds := c.feds.map (fun f =>
          if f.iterating then { f with iterating := false, asked := false, calling := false } else f) }
    else { c with iterations := false }
  else if c.state = .initializing then
    { c with
      state := .operating,
      feds := c.feds.map (fun f => { f with started := true, calling := false, iterating := false }) }
  else if observer ∨ dyn then
    { c with
      feds := c.feds.map (fun f =>
        if f.started then f else { f with started := true, calling := false, iterating := false }) }
  else c

/-- `CMD_BROKER_ACK`, CommonCore.cpp:3263-3313 -/
def Core.onBrkAck (c : Core) (name : String) (dest : Int) (err : Option Refusal) : Core × Sent :=
  if name = c.name then
    match err with
    | some _ => ({ c with state := c.state.set .errored, delayed := [] }, [])
    | none =>
      let s : Sent := c.delayed.map (fun m => (.parent, m.withSrc dest))
      let c := { c with id := dest, delayed := [] }
      if c.delay < 0 ∧ c.minFed = 0 ∧ c.minChild = 0 ∧ c.ready = true then
        let (c1, s1) := c.ask c.iterations
        (c1, s ++ s1)
      else (c, s)
  else (c, [])

/-- `CMD_FED_ACK`, CommonCore.cpp:3314-3336 and FederateState.cpp:1627-1652 (a refused federate is in
the error state: it stays in the table) -/
def Core.onFedAck (c : Core) (name : String) (dest : Int) (err : Option Refusal) : Core :=
  match err with
  | some _ => c
  | none => c.upd name (fun f => { f with gid := some dest })

/-- `ENABLE_INIT_ENTRY`, CommonCore.cpp:4942-4957 -/
def Core.onEnable (c : Core) : Core × Sent :=
  let c := { c with delay := c.delay - 1 }
  if c.delay ≤ 0 ∧ c.ready = true then c.ask false else (c, [])

/-- `checkAndProcessDisconnect`, CommonCore.cpp:5302-5340 (no filter or translator federate): the
result tells whether the core is on its way out.  A core without federates counts as all
disconnected (`minFederateState`, 608-615) -/
def Core.checkDisc (c : Core) : Core × Sent × Bool :=
  if BState.terminating.val ≤ c.state.val ∧ c.state.val ≤ BState.terminated.val then (c, [], true)
  else if c.feds.all (·.gone) then
    ({ c with state := c.state.set .terminating }, [(.parent, .disconnect c.id)], true)
  else (c, [], false)

/-- `CMD_DISCONNECT` of a federate, CommonCore.cpp:4887-4912 (the acknowledgement is not modelled) -/
def Core.onLeave (c : Core) (name : String) : Core × Sent :=
  match c.feds.find? (fun f => f.name = name) with
  | none => (c, [])
  | some f =>
    if c.state.val ≤ BState.terminating.val then
      let c1 := c.upd name (fun f => { f with gone := true })
      let (c2, s, out) := c1.checkDisc
      (c2, s ++
        if out = false ∨ c.state.val < BState.operating.val ∨ c.state = .terminating then
          [(.parent, .discFed (f.gid.getD invalidId))] else [])
    else (c, [])

/-- `CMD_USER_DISCONNECT`, CommonCore.cpp:4777-4792, and `sendDisconnect`, 5385-5410 (the part sent
to the broker) -/
def Core.onClose (c : Core) : Core × Sent :=
  if BState.connected.val ≤ c.state.val ∧ c.state.val ≤ BState.connectedError.val then
    ({ c with state := c.state.set .terminating }, [(.parent, .disconnect c.id)])
  else if c.state = .errored then (c, [(.parent, .disconnect c.id)])
  else (c, [])

/-- one event at a core -/
def Core.step (c : Core) : CoreEv → Core × Sent
  | .register name o r g => c.register name o r g
  | .callInit name iter => (c.callInit name iter, [])
  | .init name iter => c.onInit name iter
  | .leave name => c.onLeave name
  | .enableInit => c.onEnable
  | .delayInit => ({ c with delay := c.delay + 1 }, [])
  | .close => c.onClose
  | .recv (.grant _ iter o d) => (c.onGrant iter o d, [])
  | .recv (.brkAck _ name dest err) => c.onBrkAck name dest err
  | .recv (.fedAck _ name dest err) => (c.onFedAck name dest err, [])
  | .recv (.bcastDisc _) => ((c.checkDisc).1, (c.checkDisc).2.1)
  | .recv _ => (c, [])

/-! ## A root broker with cores, and everything in between -/

/-- a core and the messages around it: `wants` the `CMD_INIT`s of its federates waiting in its queue,
`up` the messages on their way to the root, `down` those from the root.  Any message under way may
arrive next, so nothing is assumed about the order of priority and ordinary commands -/
structure Node where
  core : Core
  wants : List (String × Bool) := []
  up : List Msg := []
  down : List Msg := []
deriving DecidableEq, Repr

/-- a root broker and the cores connected to it -/
structure Sys where
  root : Broker
  nodes : List Node
deriving DecidableEq, Repr

/-- what can happen next; `i` is the number of a core -/
inductive SysEv
  /-- the core sends its registration (`connect`, CommonCore.cpp:191-240) -/
  | join (i : Nat) (observer : Bool)
  /-- a federate or the application calls the core's API -/
  | api (i : Nat) (e : CoreEv)
  /-- the `j`-th queued request of a federate is processed by its core -/
  | want (i j : Nat)
  /-- the `j`-th message under way from core `i` arrives at the root -/
  | up (i j : Nat)
  /-- the `j`-th message under way to core `i` arrives there -/
  | down (i j : Nat)
deriving DecidableEq, Repr

/-- the events at a core a federate or an application causes by a call -/
def CoreEv.isApi : CoreEv → Bool
  | .register .. | .callInit .. | .leave _ | .enableInit | .delayInit | .close => true
  | _ => false

/-- does a message sent by the root on this route reach this core: children are addressed by their
name, federates by the id of the core they are on -/
def Dest.reaches (c : Core) : Dest → Bool
  | .child n => decide (c.name = n)
  | .node id => decide (c.id = id)
  | .parent => false

/-- run an event at a core, its messages go to the root -/
def Node.step (n : Node) (e : CoreEv) : Node :=
  { n with core := (n.core.step e).1, up := n.up ++ ((n.core.step e).2).map (·.2) }

/-- the messages of the root arrive in the queues of the cores they are sent to -/
def Node.receive (n : Node) (s : Sent) : Node :=
  { n with down := n.down ++ (s.filter (fun x => x.1.reaches n.core)).map (·.2) }

/-- may this message be processed by the core: the acknowledgement of the registration is the first
thing the root sends to a core, and a priority command, so it is not overtaken -/
def Core.accepts (c : Core) (m : Msg) : Bool :=
  decide (c.id ≠ parentId) || match m with | .brkAck .. => true | _ => false

/-- replace a core and its queues -/
def Sys.put (y : Sys) (i : Nat) (n : Node) : Sys := { y with nodes := y.nodes.set i n }

/-- an API call at a core: a call of `enterInitializingMode` that is accepted also queues `CMD_INIT` -/
def Node.call (n : Node) (e : CoreEv) : Node :=
  match e with
  | .callInit name iter =>
    if n.core.canCall name then { n.step e with wants := n.wants ++ [(name, iter)] } else n
  | _ => n.step e

/-- one step of the whole federation -/
def Sys.step (y : Sys) : SysEv → Sys
  | .join i obs =>
    match y.nodes[i]? with
    | some n => y.put i
        { n with up := n.up ++ [.regBrk invalidId n.core.name true obs false false true] }
    | none => y
  | .api i e =>
    match y.nodes[i]? with
    | some n => if e.isApi then y.put i (n.call e) else y
    | none => y
  | .want i j =>
    match y.nodes[i]? with
    | some n =>
      match n.wants[j]? with
      | some w => y.put i { n.step (.init w.1 w.2) with wants := n.wants.eraseIdx j }
      | none => y
    | none => y
  | .up i j =>
    match y.nodes[i]? with
    | some n =>
      match n.up[j]? with
      | some m =>
        { root := (y.root.handle m).1
          nodes := (y.nodes.set i { n with up := n.up.eraseIdx j }).map
            (·.receive (y.root.handle m).2) }
      | none => y
    | none => y
  | .down i j =>
    match y.nodes[i]? with
    | some n =>
      match n.down[j]? with
      | some m =>
        if n.core.accepts m then
          y.put i { n.step (.recv m) with down := n.down.eraseIdx j }
        else y
      | none => y
    | none => y

/-- a run -/
def Sys.run (y : Sys) (es : List SysEv) : Sys := es.foldl Sys.step y

/-- a federation at its start: a root broker with the given limits, and cores which have not
registered and have no federates -/
def Sys.start (cfg : Cfg) (cores : List Core) : Sys :=
  { root := { cfg := { cfg with isRoot := true } }, nodes := cores.map (fun c => { core := c }) }

end Verif.Init
