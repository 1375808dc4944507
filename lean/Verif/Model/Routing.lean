/-!
# How commands find their way through a hierarchy of brokers and cores

Models the registration of cores, brokers and federates and the routing tables it builds
(`src/helics/core/CoreBroker.cpp`, `src/helics/core/CommonCore.cpp`), together with the links between
the nodes.  Federation state (open, closed, limits) is left out: whether a broker turns a
registration down for such a reason is an arbitrary choice of the schedule (`admit`), and so is
whether the broker currently takes dynamic federates (`dyn`).  Also left out: repeated registration
messages (`command.counter > 0`), the filter and translator federates of a core (`child_flag`),
test connections, profiling, barriers and the closing of routes.

The names of brokers and cores are taken to be distinct, so that a node is its name.
-/
namespace Verif.Routes

/-- a broker or core; the root is 0 -/
scoped notation "Node" => Nat
/-- `GlobalFederateId` / `GlobalBrokerId`, GlobalFederateId.hpp:29-160 -/
scoped notation "Id" => Int

/-- `gRootBrokerID`, GlobalFederateId.hpp:69 -/
def rootId : Id := 1
/-- `parent_broker_id`, GlobalFederateId.hpp:67: "whoever is above me" -/
def parentId : Id := 0
/-- `gGlobalFederateIdShift`, GlobalFederateId.hpp:22 -/
def fedShift : Id := 131072
/-- `gGlobalBrokerIdShift`, GlobalFederateId.hpp:24 -/
def brkShift : Id := 1879048192
/-- `gGlobalPriorityBlockSize`, GlobalFederateId.hpp:26 -/
def block : Id := 100000000

/-- The hierarchy as configured: who is above whom, and which nodes are cores. -/
structure Net where
  par : Node → Node
  core : Node → Bool

/-- What is registered: a broker or core, or a federate with a name.  `mBrokers` and `mFederates`
(CoreBroker.hpp:107-114) are kept in one list. -/
inductive Who
  | brk (n : Node)
  | fed (name : String)
deriving DecidableEq, Repr

/-- `true` for federates -/
def Who.isFed : Who → Bool
  | .brk _ => false
  | .fed _ => true

/-- The commands: CMD_REG_BROKER / CMD_REG_FED, CMD_BROKER_ACK / CMD_FED_ACK, and anything else
that carries a destination (`pkt`), which is either a priority command or not
(`isPriorityCommand`, ActionMessage.hpp:233-236).  `src` of a packet is the node at which it was
given to the network. -/
inductive Cmd
  | reg (src : Option Id) (who : Who) (reent : Bool) (group : Nat)
  | ack (src : Option Id) (dest : Id) (who : Who) (ok : Bool)
  | pkt (src : Node) (dest : Id) (prio : Bool) (body : Nat)
deriving DecidableEq, Repr

/-- `isPriorityCommand`, ActionMessage.hpp:233-236; the registration commands are all below
`cmd_ignore` (ActionMessageDefintions.hpp) -/
def Cmd.prio : Cmd → Bool
  | .pkt _ _ p _ => p
  | _ => true

/-- an entry of `mBrokers` (`BasicBrokerInfo`, CoreBroker.hpp:68-93) or of
`mFederates` (`BasicFedInfo`, CoreBroker.hpp:54-65); the route is the neighbour it leads to -/
structure Ent where
  who : Who
  route : Node
  id : Option Id := none
  reent : Bool := false
deriving DecidableEq, Repr

/-- a federate of a core: an entry of `loopFederates` -/
structure LFed where
  name : String
  id : Option Id := none
  reent : Bool := false
  done : Bool := false
deriving DecidableEq, Repr

/-- The fields of a `CoreBroker` or `CommonCore` which this code uses: `global_broker_id_local`,
`higher_broker_id`, `mBrokers` and `mFederates`, `routing_table` (a map, here a function),
`delayTransmitQueue`, `loopFederates`; `asked` is set by `connect`. -/
structure NodeSt where
  id : Option Id := none
  up : Option Id := none
  asked : Bool := false
  ents : List Ent := []
  table : Id → Option Node := fun _ => none
  delayed : List Cmd := []
  feds : List LFed := []

/-- something a node or federate has been given by the network -/
structure Got where
  node : Node
  fed : Option String
  src : Node
  dest : Id
  prio : Bool
  body : Nat
deriving DecidableEq, Repr

/-- `CoreBroker::getRoute`, CoreBroker.cpp:153-161, and `CommonCore::getRoute`,
CommonCore.cpp:420-424, with the test for the parent in front of it in `routeMessage`
(CoreBroker.cpp:2672-2680, CommonCore.cpp:5468-5496); `p` is the parent -/
def NodeSt.getRoute (x : NodeSt) (p : Node) (d : Id) : Node :=
  if d = parentId ∨ x.up = some d then p else (x.table d).getD p

/-- `routing_table.emplace`: an existing entry is left alone -/
def emplace (t : Id → Option Node) (i : Id) (r : Node) : Id → Option Node :=
  fun j => if j = i then (match t i with | some c => some c | none => some r) else t j

/-- `mBrokers.find(name)` / `mFederates.find(name)` -/
def NodeSt.ent (x : NodeSt) (w : Who) : Option Ent := x.ents.find? (fun e => e.who == w)

/-- how many brokers (or federates) are registered -/
def NodeSt.count (x : NodeSt) (fed : Bool) : Nat :=
  (x.ents.filter (fun e => e.who.isFed == fed)).length

/-- the identifier the root gives to the next broker (CoreBroker.cpp:481-482) or federate
(CoreBroker.cpp:622-630) -/
def NodeSt.newId (x : NodeSt) (w : Who) (group : Nat) : Id :=
  match w with
  | .brk _ => brkShift + x.count false
  | .fed _ => if 0 < group ∧ group ≤ 16 then fedShift + x.count true + group * block
              else fedShift + x.count true

/-- what a node does with a command: its new state, what it transmits and what it delivers -/
abbrev Out := NodeSt × List (Node × Cmd) × List Got

/-- the part of `brokerRegistration` (CoreBroker.cpp:457-517) and `fedRegistration`
(CoreBroker.cpp:600-678) after the checks, for a new entry with route `r` -/
def NodeSt.enter (x : NodeSt) (v p : Node) (w : Who) (r : Node) (reent : Bool) (group : Nat) : Out :=
  if v = 0 then
    let i := x.newId w group
    ({ x with ents := x.ents ++ [⟨w, r, some i, reent⟩], table := emplace x.table i r },
     [(r, .ack x.id i w true)], [])
  else
    let x' := { x with ents := x.ents ++ [⟨w, r, none, reent⟩] }
    match x.id with
    | some i => (x', [(p, .reg (some i) w reent group)], [])
    | none => ({ x' with delayed := x'.delayed ++ [.reg none w reent group] }, [], [])

/-- `CoreBroker::brokerRegistration`, CoreBroker.cpp:363-517: CMD_REG_BROKER arrives from `u`.  A
direct child has no identifier yet and gets a fresh route, which is the link it wrote on. -/
def NodeSt.regBrk (x : NodeSt) (v p u : Node) (src : Option Id) (n : Node) (admit : Bool) : Out :=
  let r := match src with
    | none => u
    | some i => if i = parentId then u else x.getRoute p i
  if !admit || (x.ent (.brk n)).isSome then
    -- sendBrokerErrorAck, CoreBroker.cpp:328-361
    (x, [(r, .ack x.id parentId (.brk n) false)], [])
  else x.enter v p (.brk n) r false 0

/-- `CoreBroker::fedRegistration`, CoreBroker.cpp:546-678: CMD_REG_FED.  In a federation that takes
dynamic federates a reentrant federate may come back; then the root also redirects the entry in its
routing table (CoreBroker.cpp:646-649). -/
def NodeSt.regFed (x : NodeSt) (v p : Node) (src : Option Id) (name : String) (reent : Bool)
    (group : Nat) (admit dyn : Bool) : Out :=
  let w := Who.fed name
  let r := match src with
    | none => p
    | some i => x.getRoute p i
  -- sendFedErrorAck, CoreBroker.cpp:518-526
  let no : Out := (x, [(r, .ack x.id parentId w false)], [])
  if !admit then no
  else match x.ent w with
    | some e =>
      if dyn && reent && e.reent then
        let x' := { x with ents := x.ents.map (fun e => if e.who = w then { e with route := r } else e) }
        if v = 0 then
          match e.id with
          | some i => ({ x' with table := fun j => if j = i then some r else x.table j },
                       [(r, .ack x.id i w true)], [])
          | none => (x', [], [])
        else match x.id with
          | some i => (x', [(p, .reg (some i) w reent group)], [])
          | none => ({ x' with delayed := x'.delayed ++ [.reg none w reent group] }, [], [])
      else no
    | none => x.enter v p w r reent group

/-- the commands of `delayTransmitQueue` as they are sent at last: `transmitDelayedMessages`,
CoreBroker.cpp:944-952 and CommonCore.cpp:3397-3407 (only registrations get there in this model) -/
def Cmd.from (i : Id) : Cmd → Cmd
  | .reg _ w re g => .reg (some i) w re g
  | c => c

/-- CMD_BROKER_ACK: CoreBroker.cpp:765-824 and CommonCore.cpp:3264-3314.  (For a name the broker has
not seen the code would dereference the end of `mBrokers`, CoreBroker.cpp:818-823; the flag says
whether that happens.) -/
def NodeSt.ackBrk (x : NodeSt) (v p : Node) (src : Option Id) (dest : Id) (n : Node) (ok : Bool) :
    Out × Bool :=
  if n = v then
    if ok then
      (({ x with id := some dest, up := src, delayed := [] },
        x.delayed.map (fun c => (p, c.from dest)), []), false)
    else ((x, [], []), false)
  else match x.ent (.brk n) with
    | some e =>
      if e.id = some dest then ((x, [], []), false)
      else
        (({ x with
            ents := x.ents.map (fun e => if e.who = .brk n then { e with id := some dest } else e)
            table := emplace x.table dest e.route },
          [(e.route, .ack x.id dest (.brk n) ok)], []), false)
    | none => ((x, [], []), true)

/-- CMD_FED_ACK at a broker: CoreBroker.cpp:736-764.  The flag as in `ackBrk`. -/
def NodeSt.ackFed (x : NodeSt) (src : Option Id) (dest : Id) (name : String) (ok : Bool) : Out × Bool :=
  match x.ent (.fed name) with
  | some e =>
    let i := e.id.getD dest
    (({ x with
        ents := x.ents.map (fun e => if e.who = .fed name then { e with id := some i } else e)
        table := emplace x.table i e.route },
      [(e.route, .ack src dest (.fed name) ok)], []), false)
  | none => ((x, [], []), true)

/-- CMD_FED_ACK at a core: CommonCore.cpp:3315-3337 -/
def NodeSt.ackLocal (x : NodeSt) (dest : Id) (name : String) (ok : Bool) : Out :=
  if ok then
    ({ x with feds := x.feds.map (fun l => if l.name = name then { l with id := some dest } else l) },
     [], [])
  else (x, [], [])

/-- Any other command: the tests for the own identifier in `CoreBroker::processCommand`
(CoreBroker.cpp:1123-1590) and in `CommonCore::routeMessage` (CommonCore.cpp:5468-5496), then
`routeMessage`.  The root has nobody above it: what it would send there is lost
(`hasBroker` in the transmission loops, e.g. network/tcp/TcpComms.cpp:499-520). -/
def NodeSt.onPkt (x : NodeSt) (v p : Node) (core : Bool) (s : Node) (d : Id) (prio : Bool) (b : Nat) :
    Out :=
  if x.id = some d then (x, [], [⟨v, none, s, d, prio, b⟩])
  else match (if core then x.feds.find? (fun l => l.id == some d) else none) with
    | some l => (x, [], [⟨v, some l.name, s, d, prio, b⟩])
    | none =>
      let r := x.getRoute p d
      if r = v then (x, [], []) else (x, [(r, .pkt s d prio b)], [])

/-- a node takes the command `c` which came from `u`: `processPriorityCommand` and `processCommand`,
CoreBroker.cpp:693-843, 1101-; CommonCore.cpp:3197-3395.  A core passes stray broker registrations
on (CommonCore.cpp:3249-3263) and gets no federate registrations from outside. -/
def NodeSt.onCmd (x : NodeSt) (net : Net) (v u : Node) (admit dyn : Bool) : Cmd → Out × Bool
  | .reg src (.brk n) re g =>
    if net.core v then ((x, [(net.par v, .reg src (.brk n) re g)], []), false)
    else (x.regBrk v (net.par v) u src n admit, false)
  | .reg src (.fed name) re g =>
    if net.core v then ((x, [], []), false)
    else (x.regFed v (net.par v) src name re g admit dyn, false)
  | .ack src d (.brk n) ok =>
    if net.core v && decide (n ≠ v) then ((x, [], []), false)
    else x.ackBrk v (net.par v) src d n ok
  | .ack src d (.fed name) ok =>
    if net.core v then (x.ackLocal d name ok, false) else x.ackFed src d name ok
  | .pkt s d prio b => (x.onPkt v (net.par v) (net.core v) s d prio b, false)

/-- A command on a link, with the identifiers its sender had heard of: this second part is not in
the code; it records what the receiver may learn from the command. -/
structure Parcel where
  cmd : Cmd
  know : List Id
deriving DecidableEq, Repr

/-- a packet as the application gave it to the network -/
structure Sent where
  node : Node
  dest : Id
  prio : Bool
  body : Nat
deriving DecidableEq, Repr

/-- The whole hierarchy: the nodes, the links (`link u v` is on the way from `u` to `v`), which
identifiers each node has heard of (not in the code, see `Parcel`), what has been given to the
network and by it, and whether a broker ran into an acknowledgement it knew nothing of. -/
structure Sys where
  node : Node → NodeSt
  link : Node → Node → List Parcel
  know : Node → List Id
  sent : List Sent := []
  got : List Got := []
  stray : Bool := false

/-- What can happen. -/
inductive Ev
  /-- a core or broker registers with the one above it -/
  | connect (n : Node)
  /-- a federate registers with its core -/
  | join (n : Node) (name : String) (reent : Bool) (group : Nat)
  /-- a federate ends -/
  | leave (n : Node) (name : String)
  /-- something is sent from node `n` to the identifier `d` -/
  | send (n : Node) (d : Id) (prio : Bool) (body : Nat)
  /-- the node `v` takes a command that came from `u`: the oldest one (`first = false`) or the
  oldest one with priority -/
  | take (u v : Node) (first admit dyn : Bool)
deriving DecidableEq, Repr

/-- a function changed at one place -/
def upd {α : Type} (f : Node → α) (a : Node) (x : α) : Node → α := fun b => if b = a then x else f b

/-- transmission: the command is put at the end of the link -/
def Sys.put (s : Sys) (u v : Node) (c : Cmd) : Sys :=
  { s with link := upd s.link u (upd (s.link u) v (s.link u v ++ [⟨c, s.know u⟩])) }

/-- several transmissions -/
def Sys.puts (s : Sys) (u : Node) (cs : List (Node × Cmd)) : Sys :=
  cs.foldl (fun s c => s.put u c.1 c.2) s

/-- the identifiers a node can tell others about after it has done something: an acknowledgement
which the root sends names an identifier the root has just made -/
def fresh (cs : List (Node × Cmd)) : List Id :=
  cs.filterMap (fun c => match c.2 with | .ack _ d _ true => some d | _ => none)

/-- the effect of what a node did -/
def Sys.apply (s : Sys) (v : Node) (o : Out × Bool) : Sys :=
  let s' : Sys := { s with
    node := upd s.node v o.1.1
    know := upd s.know v (s.know v ++ fresh o.1.2.1)
    got := s.got ++ o.1.2.2
    stray := s.stray || o.2 }
  s'.puts v o.1.2.1

/-- the command a node takes from a link: a priority command may be taken before the others, as in
the two lanes of the queues (`BlockingPriorityQueue`, used in BrokerBase.cpp:1030-1188 and in
network/CommsInterface.cpp); returned with what was in front of it and behind it -/
def pick (first : Bool) : List Parcel → Option (List Parcel × Parcel × List Parcel)
  | [] => none
  | p :: ps =>
    if !first || p.cmd.prio then some ([], p, ps)
    else (pick first ps).map (fun r => (p :: r.1, r.2.1, r.2.2))

/-- one event -/
def Sys.step (net : Net) (s : Sys) : Ev → Sys
  -- CoreBroker.cpp:2496-2512, CommonCore.cpp:200-222
  | .connect n =>
    if n = 0 ∨ (s.node n).asked then s
    else { s with node := upd s.node n { s.node n with asked := true } }.put n (net.par n)
      (.reg none (.brk n) false 0)
  -- CommonCore.cpp:766-866, 3222-3240
  | .join n name reent group =>
    let x := s.node n
    match net.core n, x.id, x.feds.find? (fun l => l.name == name) with
    | true, some i, none =>
      let x' := { x with feds := x.feds ++ [⟨name, none, reent, false⟩] }
      { s with node := upd s.node n x' }.put n (net.par n) (.reg (some i) (.fed name) reent group)
    | true, some i, some l =>
      if l.reent && l.done then
        let x' := { x with
          feds := x.feds.map (fun l => if l.name = name then { l with done := false } else l) }
        { s with node := upd s.node n x' }.put n (net.par n) (.reg (some i) (.fed name) reent group)
      else s
    | _, _, _ => s
  -- FederateState.cpp:985-1046 (only that the federate has finished)
  | .leave n name =>
    let x := s.node n
    let x' := { x with
      feds := x.feds.map (fun l => if l.name = name ∧ l.id.isSome then { l with done := true } else l) }
    { s with node := upd s.node n x' }
  | .send n d prio b =>
    if d = parentId then s
    else
      let s' : Sys := { s with sent := s.sent ++ [⟨n, d, prio, b⟩] }
      s'.apply n ((s.node n).onPkt n (net.par n) (net.core n) n d prio b, false)
  | .take u v first admit dyn =>
    match pick first (s.link u v) with
    | none => s
    | some (pre, p, post) =>
      let s' : Sys := { s with
        link := upd s.link u (upd (s.link u) v (pre ++ post))
        know := upd s.know v (s.know v ++ p.know) }
      s'.apply v ((s.node v).onCmd net v u admit dyn p.cmd)

/-- a history -/
def Sys.run (net : Net) (s : Sys) (es : List Ev) : Sys := es.foldl (Sys.step net) s

/-- the beginning: nobody but the root has an identifier -/
def Sys.start : Sys where
  node := fun n => if n = 0 then { id := some rootId } else {}
  link := fun _ _ => []
  know := fun n => if n = 0 then [rootId] else []

end Verif.Routes
