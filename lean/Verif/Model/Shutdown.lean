/-!
# How a federation ends

Models the disconnection protocol between federates, cores and brokers
(`src/helics/core/CoreBroker.cpp`, `src/helics/core/CommonCore.cpp`,
`src/helics/core/FederateState.cpp`): who tells whom that it leaves, who confirms what, and when each of
them stops.  The members of the federation and their tree are fixed (registration is the subject of
`Model/Routing`); a message to a neighbour travels on the link to that neighbour.

Left out: errors, time-outs and pings, filter and translator federates, queries, reentrant
federates, the removal of routes.  A broker also has entries for the brokers and cores further down
(`_nonLocal`); these do not count in `getAllConnectionState`, and what is sent to them because of
such an entry (`mBrokers.apply` at CoreBroker.cpp:1257-1267, 3397-3407) is ignored by its receiver,
because the sender is not the receiver's parent (CoreBroker.cpp:1255-1256, CommonCore.cpp:4922): they
are left out too.
-/
namespace Verif.Down

/-- a broker, core or federate; the root broker is 0 -/
scoped notation "Node" => Nat

inductive Kind
  | broker | core | fed
deriving DecidableEq, Repr

/-- The federation: its members are the numbers below `size`.  `glob`: the global disconnect option
(BrokerBase.cpp:170-172); `tied n`: the time coordinators of `n` and of the node above it depend on
each other. -/
structure Net where
  size : Nat
  par : Node → Node
  kind : Node → Kind
  glob : Node → Bool
  tied : Node → Bool

/-- the members directly below `n`: the local entries of `mBrokers`, or `loopFederates` -/
def Net.kids (net : Net) (n : Node) : List Node :=
  (List.range net.size).filter (fun c => c != 0 && net.par c == n)

/-- The commands.  `bye`: CMD_DISCONNECT from a federate's application to the federate itself;
`disc`: CMD_DISCONNECT to `parent_broker_id`; `tbye`: CMD_DISCONNECT from a time coordinator to
the one of the receiver; `ack`: CMD_DISCONNECT_FED_ACK, CMD_DISCONNECT_CORE_ACK or
CMD_DISCONNECT_BROKER_ACK; `note`: CMD_DISCONNECT_FED, CMD_DISCONNECT_CORE or CMD_DISCONNECT_BROKER on
its way up; `spread`: CMD_BROADCAST_DISCONNECT; `halt`: CMD_USER_DISCONNECT or CMD_GLOBAL_DISCONNECT;
`stop`: CMD_STOP. -/
inductive Cmd
  | bye | disc | tbye | ack | note | spread | halt | stop
deriving DecidableEq, Repr

/-- `running`: below TERMINATING; `stopped`: the main loop has ended (for a federate: FINISHED) -/
inductive Phase
  | running | terminating | stopped
deriving DecidableEq, Repr

/-- The fields of a `CoreBroker`, `CommonCore` or `FederateState` which this code uses.  `called`: the
application has called finalize (federates); `oper`: the state is at least OPERATING; `gone`: the
entry of a neighbour below is DISCONNECTED; `acked`: `_sent_disconnect_ack`; `dep`: the neighbour below
is a dependent of the time coordinator; `silent`: the time coordinator has said goodbye. -/
structure NSt where
  phase : Phase := .running
  called : Bool := false
  oper : Bool := false
  gone : Node → Bool := fun _ => false
  acked : Node → Bool := fun _ => false
  dep : Node → Bool := fun _ => false
  silent : Bool := false

/-- a function changed at one place -/
def upd {α : Type} (f : Node → α) (a : Node) (x : α) : Node → α := fun b => if b = a then x else f b

/-- what a node does with a command: its new state and what it sends -/
abbrev Out := NSt × List (Node × Cmd)

/-- all neighbours below are DISCONNECTED: `minFederateState() == DISCONNECTED`,
CommonCore.cpp:607-614 -/
def NSt.all (x : NSt) (kids : List Node) : Bool := kids.all x.gone

/-- `getAllConnectionState() >= DISCONNECTED`, CoreBroker.cpp:4707-4719: not so without neighbours -/
def NSt.allLocal (x : NSt) (kids : List Node) : Bool := !kids.isEmpty && x.all kids

/-- `BaseTimeCoordinator::disconnect`, BaseTimeCoordinator.cpp:80-123, as far as the tree is
concerned: goodbye to the dependents below and to the node above -/
def NSt.hush (x : NSt) (net : Net) (v : Node) : Out :=
  if x.silent then (x, [])
  else ({ x with silent := true },
    ((net.kids v).filter x.dep).map (fun c => (c, Cmd.tbye)) ++
    (if v ≠ 0 ∧ net.tied v then [(net.par v, Cmd.tbye)] else []))

/-! ### Federates -/

/-- `FederateState::processActionMessage`, FederateState.cpp:1553-1575, and
`processCoordinatorMessage`, TimeCoordinatorProcessing.cpp:142-160, of a federate `v` which is ending -/
def NSt.fedCmd (x : NSt) (net : Net) (v : Node) : Cmd → Out
  | .bye =>
    if x.phase = .running then
      ({ x with phase := .terminating, silent := true },
        (if net.tied v && !x.silent then [(net.par v, .tbye)] else []) ++ [(net.par v, .disc)])
    else (x, [])
  | .halt =>
    if x.phase = .running then
      ({ x with phase := .terminating, silent := true },
        (if net.tied v && !x.silent then [(net.par v, .tbye)] else []) ++ [(net.par v, .halt)])
    else (x, [])
  | .ack => ({ x with phase := .stopped }, [])
  | .stop => ({ x with phase := .stopped }, [])
  | _ => (x, [])

/-! ### Cores -/

/-- `CommonCore::checkAndProcessDisconnect`, CommonCore.cpp:5302-5340, without filters and
translators; with the returned value -/
def NSt.check (x : NSt) (net : Net) (v : Node) : Out × Bool :=
  if x.phase = .running then
    if x.all (net.kids v) then
      let o := NSt.hush { x with phase := .terminating } net v
      ((o.1, o.2 ++ [(net.par v, .disc)]), true)
    else ((x, []), false)
  else ((x, []), true)

/-- `CommonCore::sendDisconnect`, CommonCore.cpp:5385-5410 -/
def NSt.leave (x : NSt) (net : Net) (v : Node) : Out :=
  let o := NSt.hush { x with phase := .terminating } net v
  (o.1, (net.kids v).map (fun f => (f, Cmd.stop)) ++ o.2 ++ [(net.par v, .disc)])

/-- `CommonCore::processDisconnectCommand`, CommonCore.cpp:4774-4937, and the part of
`processCommandsForCore` for disconnections, CommonCore.cpp:5186-5206; the command came from `u`.
Confirmations to federates that have finished already are ignored by them, therefore the tests for
that are left out. -/
def NSt.coreCmd (x : NSt) (net : Net) (v u : Node) : Cmd → Out
  -- CommonCore.cpp:4913-4915: passed on to the federate
  | .bye => (x, [(u, .bye)])
  -- CommonCore.cpp:4887-4912
  | .disc =>
    let x1 := { x with gone := upd x.gone u true }
    let pre := decide (x.phase = .running) && !x.oper
    let late := decide (x.phase = .terminating)
    let r := x1.check net v
    (r.1.1, r.1.2 ++
      (if !r.2 || pre || late then
        (net.par v, Cmd.note) ::
        (if (pre || late || !x1.all (net.kids v)) && !net.glob v then [(u, Cmd.ack)] else [])
      else []))
  -- CommonCore.cpp:5187-5206
  | .tbye =>
    if u = net.par v then
      let o := NSt.hush { x with phase := .terminating } net v
      (o.1, o.2 ++ (net.kids v).map (fun f => (f, Cmd.ack)) ++ [(v, .stop)])
    else (x.check net v).1
  -- CommonCore.cpp:4921-4933
  | .ack =>
    if u = net.par v then (x, (net.kids v).map (fun f => (f, Cmd.ack)) ++ [(v, .stop)]) else (x, [])
  -- CommonCore.cpp:4794-4798
  | .spread => (x.check net v).1
  -- CommonCore.cpp:4777-4793
  | .halt =>
    let o := if x.phase = .running then x.leave net v else (x, [])
    (o.1, o.2 ++ [(v, .stop)])
  -- CommonCore.cpp:4861-4886, BrokerBase.cpp:1061-1079
  | .stop =>
    let o := if x.phase = .running then x.leave net v else (x, [])
    ({ o.1 with phase := .stopped }, o.2)
  | .note => (x, [])

/-! ### Brokers -/

/-- `CoreBroker::broadcast`, CoreBroker.cpp:2706-2714 -/
def NSt.broadcast (x : NSt) (net : Net) (v : Node) (c : Cmd) : List (Node × Cmd) :=
  ((net.kids v).filter (fun k => !x.gone k)).map (fun k => (k, c))

/-- confirmations for all that have none yet: CoreBroker.cpp:1257-1267, 3397-3407 -/
def NSt.confirm (x : NSt) (net : Net) (v : Node) : Out :=
  ({ x with acked := fun k => x.acked k || (net.kids v).contains k },
    ((net.kids v).filter (fun k => !x.acked k)).map (fun k => (k, Cmd.ack)))

/-- `CoreBroker::disconnectBroker`, CoreBroker.cpp:3547-3566, with `markAsDisconnected`,
CoreBroker.cpp:3516-3545, for the neighbour `u` -/
def NSt.drop (x : NSt) (net : Net) (v u : Node) : Out :=
  let x1 := { x with gone := upd x.gone u true }
  (x1, if v = 0 && !x.oper then x1.broadcast net v .spread else [])

/-- `CoreBroker::processBrokerDisconnect`, CoreBroker.cpp:3368-3450, for CMD_DISCONNECT from the
neighbour `u` below -/
def NSt.discBelow (x : NSt) (net : Net) (v u : Node) : Out :=
  let d := x.drop net v u
  if d.1.allLocal (net.kids v) then
    let o := d.1.hush net v
    if v ≠ 0 then (o.1, d.2 ++ o.2 ++ [(net.par v, .disc)])
    else if net.glob v then
      let a := o.1.confirm net v
      (a.1, d.2 ++ o.2 ++ a.2 ++ [(v, .stop)])
    else ({ o.1 with acked := upd o.1.acked u true }, d.2 ++ o.2 ++ [(u, .ack), (v, .stop)])
  else
    let up := if v ≠ 0 && !x.oper then [(net.par v, Cmd.note)] else []
    if net.glob v then (d.1, d.2 ++ up)
    else ({ d.1 with acked := upd d.1.acked u true }, d.2 ++ [(u, .ack)] ++ up)

/-- `CoreBroker::sendDisconnect`, CoreBroker.cpp:1061-1093 -/
def NSt.dismiss (x : NSt) (net : Net) (v : Node) : Out :=
  let out := (net.kids v).filterMap (fun k =>
    if !x.gone k then some (k, Cmd.halt) else if !x.acked k then some (k, Cmd.ack) else none)
  let x1 := { x with
    gone := fun k => x.gone k || (net.kids v).contains k
    acked := fun k => x.acked k || (net.kids v).contains k
    dep := fun k => x.dep k && x.gone k }
  let o := x1.hush net v
  (o.1, out ++ o.2)

/-- the disconnection commands of `CoreBroker::processCommand`, CoreBroker.cpp:1249-1343, and
`processDisconnectCommand`, CoreBroker.cpp:3452-3481; the command came from `u` -/
def NSt.brokerCmd (x : NSt) (net : Net) (v u : Node) : Cmd → Out
  | .disc => x.discBelow net v u
  -- disconnectTiming, CoreBroker.cpp:3348-3366; a goodbye removes the dependent,
  -- BaseTimeCoordinator.cpp:385-397
  | .tbye => if x.oper then ({ x with dep := upd x.dep u false }, []) else (x, [])
  -- CoreBroker.cpp:1254-1270
  | .ack =>
    if v ≠ 0 ∧ u = net.par v then
      let a := x.confirm net v
      (a.1, a.2 ++ [(v, .stop)])
    else (x, [])
  -- CoreBroker.cpp:1309-1326, 3469-3476
  | .note =>
    if v ≠ 0 then (x, [(net.par v, .note)])
    else (x, if x.oper then [] else x.broadcast net v .spread)
  -- CoreBroker.cpp:1340-1343
  | .spread => (x, x.broadcast net v .spread)
  -- CoreBroker.cpp:1271-1275
  | .halt =>
    let o := x.dismiss net v
    (o.1, o.2 ++ [(v, .stop)])
  -- CoreBroker.cpp:1327-1339, BrokerBase.cpp:1061-1079
  | .stop =>
    if x.allLocal (net.kids v) then ({ x with phase := .stopped }, [])
    else
      let o := x.hush net v
      ({ o.1 with phase := .stopped }, o.2 ++ (if v ≠ 0 then [(net.par v, .disc)] else []))
  | .bye => (x, [])

/-- a node takes a command; one that has stopped drops it (BrokerBase.cpp:1069-1079) -/
def NSt.onCmd (x : NSt) (net : Net) (v u : Node) (c : Cmd) : Out :=
  if x.phase = .stopped then (x, [])
  else match net.kind v with
    | .fed => x.fedCmd net v c
    | .core => x.coreCmd net v u c
    | .broker => x.brokerCmd net v u c

/-! ### The whole federation -/

/-- the members and what is on its way between them; `link v v` is what `v`, or its application, put
in its own queue -/
structure Sys where
  node : Node → NSt
  link : Node → Node → List Cmd

def Sys.put (s : Sys) (u : Node) (c : Node × Cmd) : Sys :=
  { s with link := upd s.link u (upd (s.link u) c.1 (s.link u c.1 ++ [c.2])) }

/-- several transmissions -/
def Sys.puts (s : Sys) (u : Node) (cs : List (Node × Cmd)) : Sys := cs.foldl (fun s c => s.put u c) s

/-- What can happen. -/
inductive Ev
  /-- the application of the federate `f` calls finalize -/
  | finalize (f : Node)
  /-- somebody disconnects the broker or core `n` by hand -/
  | kill (n : Node)
  /-- the broker or core `n` gets to the operating state -/
  | start (n : Node)
  /-- `v` takes the oldest command that came from `u` -/
  | take (u v : Node)
deriving DecidableEq, Repr

def Sys.step (net : Net) (s : Sys) : Ev → Sys
  -- CommonCore.cpp:539-573; later calls do nothing (Federate.cpp:770-812, see C52)
  | .finalize f =>
    if net.kind f = .fed ∧ f < net.size ∧ (s.node f).called = false then
      let s1 := { s with node := upd s.node f { s.node f with called := true } }
      let c := net.par f
      if (s.node c).phase = .running then s1.put f (c, .bye)
      else (s1.put c (c, .stop)).put f (f, .stop)
    else s
  -- CommonCore.cpp:298-300, CoreBroker.cpp:2616-2618
  | .kill n => if net.kind n ≠ .fed ∧ n < net.size then s.put n (n, .halt) else s
  | .start n => { s with node := upd s.node n { s.node n with oper := true } }
  | .take u v =>
    match s.link u v with
    | [] => s
    | c :: cs =>
      let o := (s.node v).onCmd net v u c
      let s1 : Sys := { node := upd s.node v o.1, link := upd s.link u (upd (s.link u) v cs) }
      s1.puts v o.2

def Sys.run (net : Net) (s : Sys) (es : List Ev) : Sys := es.foldl (Sys.step net) s

/-- the beginning: everybody is registered; `oper` says who has got to the operating state -/
def Sys.start (net : Net) (oper : Bool) : Sys where
  node := fun _ => { oper := oper, dep := net.tied }
  link := fun _ _ => []

end Verif.Down
