/-!
# Noticing lost connections

Models `TimeoutMonitor` (src/helics/core/TimeoutMonitor.h, src/helics/core/TimeoutMonitor.cpp), how the main loop of a broker or
core hands it the ticks of its timer (src/helics/core/BrokerBase.cpp:936-1036) and what a broker does when the monitor has
found a connection lost (src/helics/core/CoreBroker.cpp:1158-1211).

Times are in milliseconds.  Simplifications: the logging, time-outs of queries, the maximal duration of a simulation and the
resending of a registration are left out; what the commands that leave do at their receivers is not modelled, replies and
changes of the members' states arrive as commands in any order; no ping carries the place holder 0 as its source
(src/helics/core/BrokerBase.cpp:1033).
-/
namespace Verif
namespace Ping

abbrev Id := Int

/-- `ConnectionState` (src/helics/core/CoreBroker.hpp:41-48). -/
inductive St | connected | initRequested | operating | error | requestDisconnect | disconnected
  deriving DecidableEq, Repr

/-- `state < ConnectionState::ERROR_STATE` (src/helics/core/TimeoutMonitor.cpp:194). -/
def St.live : St → Bool
  | .connected | .initRequested | .operating => true
  | _ => false

/-- `linkConnection` (src/helics/core/TimeoutMonitor.h:19-25). -/
structure Link where
  id : Id := 0
  waiting : Bool := false
  active : Bool := false
  noPing : Bool := false
  last : Int := 0
  deriving DecidableEq, Repr

/-- `BasicBrokerInfo` (src/helics/core/CoreBroker.hpp:70-95), as far as it is used here. -/
structure Member where
  id : Id
  core : Bool := true
  noPing : Bool := false
  state : St := .operating
  deriving DecidableEq, Repr

/-- What is sent or begun.  `ping` is the first question (`CMD_PING` to a core, `CMD_BROKER_PING` to a broker), `again` a
repeated one, `lost` is `CMD_CONNECTION_ERROR`; `check` is `CMD_CHECK_CONNECTIONS`; `forward` is the request for tick forwarding
(which changes nothing, see `Node.tickCmd`).  `drop`, `fail` and `passUp` are the three ways of dealing with a lost connection. -/
inductive Out
  | ping (x : Id) (core : Bool)
  | again (x : Id)
  | lost (x : Id)
  | pingParent
  | againParent
  | parentLost
  | check
  | forward (on : Bool)
  | drop (x : Id)
  | fail
  | passUp (x : Id)
  deriving DecidableEq, Repr

/-- A broker or core with its monitor (src/helics/core/TimeoutMonitor.h:51-57).  `linked` stands for `isConnected()` with an
identifier of its own, `higher` for a valid identifier of the broker above; `since` is `messagesSinceLastTick`
(src/helics/core/BrokerBase.cpp:915). -/
structure Node where
  isCore : Bool := false
  root : Bool := true
  timeout : Int := 100000000
  waitConn : Bool := false
  startWait : Int := 0
  parent : Link := {}
  conns : List Link := []
  members : List Member := []
  operating : Bool := true
  linked : Bool := true
  higher : Bool := true
  since : Nat := 0
  out : List Out := []
  deriving DecidableEq, Repr

namespace Node

def send (b : Node) (o : Out) : Node := { b with out := b.out ++ [o] }

/-- change the first record with the identifier (src/helics/core/TimeoutMonitor.cpp:180-188) -/
def modFirst (x : Id) (f : Link → Link) : List Link → List Link
  | [] => []
  | c :: cs => if c.id = x then f c :: cs else c :: modFirst x f cs

/-- a record for the member, made if there is none (src/helics/core/TimeoutMonitor.cpp:180-192) -/
def withLink (cs : List Link) (m : Member) : List Link :=
  if cs.any (fun c => c.id == m.id) then cs else cs ++ [{ id := m.id, noPing := m.noPing }]

/-- does the member not answer pings (src/helics/core/TimeoutMonitor.cpp:195)? -/
def silent (cs : List Link) (x : Id) : Bool :=
  match cs.find? (fun c => c.id == x) with
  | some c => c.noPing
  | none => false

/-- One turn of the loop of `pingSub` (src/helics/core/TimeoutMonitor.cpp:178-211). -/
def pingOne (now : Int) (b : Node) (m : Member) : Node :=
  let cs := withLink b.conns m
  if m.state.live then
    if silent cs m.id then { b with conns := cs }
    else { b with conns := modFirst m.id (fun c => { c with active := true, waiting := true, last := now }) cs,
                  out := b.out ++ [.ping m.id m.core] }
  else { b with conns := modFirst m.id (fun c => { c with active := false }) cs }

/-- `pingSub` (src/helics/core/TimeoutMonitor.cpp:174-220); `activePing` says that something was sent. -/
def pingSub (b : Node) (now : Int) : Node :=
  let b' := b.members.foldl (pingOne now) b
  if b'.out.length ≠ b.out.length then b'.send (.forward true) else b'

/-- The answer still awaited from the broker above (src/helics/core/TimeoutMonitor.cpp:23-43,95-115). -/
def tickParent (b : Node) (now : Int) : Node :=
  if now - b.parent.last > b.timeout then { b with operating := false }.send .parentLost else b.send .againParent

/-- ask the broker above (src/helics/core/TimeoutMonitor.cpp:44-56,137-149) -/
def askParent (b : Node) (now : Int) : Node :=
  if b.higher then { b with parent := { b.parent with last := now, waiting := true } }.send .pingParent else b

/-- waiting for the connection (src/helics/core/TimeoutMonitor.cpp:63-87,150-173) -/
def awaitConn (b : Node) (now : Int) : Node :=
  if b.waitConn then (if now - b.startWait > b.timeout then b.send .check else b)
  else { b with waitConn := true, startWait := now }

/-- `tick(CommonCore*)` (src/helics/core/TimeoutMonitor.cpp:20-88); `now2` is the second reading of the clock. -/
def tickCore (b : Node) (now now2 : Int) : Node :=
  if b.parent.waiting then b.tickParent now
  else if b.linked then b.askParent now2
  else b.awaitConn now

/-- The loop over the members (src/helics/core/TimeoutMonitor.cpp:117-132). -/
def tickLinks (b : Node) (now : Int) : Node :=
  { b with out := b.out ++ b.conns.filterMap fun c =>
      if c.waiting then some (if now - c.last > b.timeout then .lost c.id else .again c.id) else none }

/-- `tick(CoreBroker*)` (src/helics/core/TimeoutMonitor.cpp:90-172). -/
def tickBroker (b : Node) (now now2 : Int) : Node :=
  let waiting := b.parent.waiting || b.conns.any (·.waiting)
  let b1 := if !b.root && b.parent.waiting then b.tickParent now else b
  let b2 := b1.tickLinks now
  if waiting then b2
  else if b2.root then b2.pingSub now2
  else if b2.linked then b2.askParent now
  else b2.awaitConn now

/-- `CMD_TICK` in the main loop (src/helics/core/BrokerBase.cpp:948-988): it is handed on only if no other command was handled
since the last tick - also when tick forwarding was requested, for then only the reason is noted - and, in
`processCommand` (src/helics/core/CoreBroker.cpp:1116-1119, src/helics/core/CommonCore.cpp:4630-4638), only in the operating state. -/
def tickCmd (b : Node) (now now2 : Int) : Node :=
  let b' := if b.since = 0 ∧ b.operating = true then (if b.isCore then b.tickCore now now2 else b.tickBroker now now2) else b
  { b' with since := 0 }

/-- `pingReply` (src/helics/core/TimeoutMonitor.cpp:231-257). -/
def pingReply (b : Node) (src : Id) : Node :=
  if src = b.parent.id then { b with parent := { b.parent with waiting := false }, waitConn := false }
  else
    let was := b.conns.foldl (fun w c => if c.id = src then c.waiting else w) false
    let cs := b.conns.map fun c => if c.id = src then { c with waiting := false } else c
    let b' := { b with conns := cs }
    if was && !(cs.any (·.waiting)) && !b.isCore then b'.send (.forward false) else b'

/-- `reset` (src/helics/core/TimeoutMonitor.cpp:222-229). -/
def reset (b : Node) : Node :=
  { b with parent := { b.parent with waiting := false }, waitConn := false,
           conns := b.conns.map fun c => { c with waiting := false } }

/-- `CMD_CONNECTION_ERROR` for this broker (src/helics/core/CoreBroker.cpp:1158-1207). -/
def connError (b : Node) (x : Id) : Node :=
  if b.members.any (fun m => m.state == .disconnected && m.id == x) then b
  else if b.members.any (fun m => m.state == .disconnected) then b.send (.drop x)
  else if b.root then { b with operating := false }.send .fail
  else b.send (.passUp x)

/-- the commands that matter here; `other` is any other command, `acknowledged` the answer to the registration
(src/helics/core/CoreBroker.cpp:794-798, src/helics/core/CommonCore.cpp:3283-3296) with the wish not to be pinged, `brokerPing` is
`CMD_BROKER_PING`: it has the number of `CMD_BROKER_SETUP` (src/helics/core/ActionMessageDefintions.hpp:237-239), so a broker takes
it for that (src/helics/core/CoreBroker.cpp:716-731), does not answer it and does not ask its own members. -/
inductive Ev
  | tick (now now2 : Int)
  | reply (src : Id)
  | join (m : Member)
  | state (x : Id) (s : St)
  | connError (x : Id)
  | acknowledged (parent : Id) (slow : Bool)
  | brokerPing
  | operate (on : Bool)
  | other
  deriving DecidableEq, Repr

/-- One command in the main loop (src/helics/core/BrokerBase.cpp:936-1040).  A member that joins has a new
identifier (C55). -/
def handle (b : Node) : Ev → Node
  | .tick now now2 => b.tickCmd now now2
  | .reply src => { b.pingReply src with since := b.since + 1 }
  | .join m => if b.members.any (fun x => x.id == m.id) then { b with since := b.since + 1 }
      else { b with members := b.members ++ [m], since := b.since + 1 }
  | .state x s => { b with members := b.members.map (fun m => if m.id = x then { m with state := s } else m), since := b.since + 1 }
  | .connError x => { b.connError x with since := b.since + 1 }
  | .acknowledged p slow =>
      { reset { b with parent := { b.parent with id := p, noPing := slow || b.parent.noPing } } with since := b.since + 1 }
  | .brokerPing => { b with since := b.since + 1 }
  | .operate on => { b with operating := on, since := b.since + 1 }
  | .other => { b with since := b.since + 1 }

end Node
end Ping
end Verif
