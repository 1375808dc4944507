/-!
# Queries about the whole federation

Models how brokers and cores answer the queries which need an answer of everybody below them
(`src/helics/common/JsonBuilder.cpp`, `src/helics/core/CoreBroker.cpp`, `src/helics/core/CommonCore.cpp`,
`src/helics/core/FederateState.cpp`): the map under construction with its place holders, the list of
those who wait for it, the requests sent down and the answers which come back.

The JSON documents are replaced by trees (`Ans`): who produced the document, in answer to which query, at
which moment, and the documents of the others inside it.  Left out: the texts in them, the special
final texts of `global_status` and `global_flush` (CoreBroker.cpp:4463-4473, CommonCore.cpp:4311-4313),
the entries `global_state` makes for those who have left (CoreBroker.cpp:4045-4069), the time-out of a
waiting query, filter and translator federates (they answer at once, like a federate which is not busy).
A reply to somebody further away than the node above is counted as given when it is sent (its way is the
subject of `Model/Routing`).
-/
namespace Verif.Query

/-- a broker, core or federate; the root broker is 0 -/
scoped notation "Node" => Nat

/-- also the three arrays "brokers", "cores" and "federates" of an answer -/
inductive Kind
  | broker | core | fed
deriving DecidableEq, Repr

/-- The answers.  `doc v i t es`: the document of `v` in answer to the query `i`, begun at `t`, with the
documents `es` in its arrays; `blank`: "{}"; `wait`: "#wait". -/
inductive Ans
  | wait | blank
  | doc (v i t : Nat) (es : List (Kind × Ans))

/-- The federation: its members are the numbers below `size`.  The queries are the numbers below
`types`; `reuse i`: `QueryReuse::ENABLED` in the tables CoreBroker.cpp:88-105 and CommonCore.cpp:58-73. -/
structure Net where
  size : Nat
  par : Node → Node
  kind : Node → Kind
  types : Nat
  reuse : Nat → Bool

/-- the members directly below `n`: the entries of `mBrokers` with this parent, or `loopFederates` -/
def Net.kids (net : Net) (n : Node) : List Node :=
  (List.range net.size).filter (fun c => c != 0 && net.par c == n)

def upd {α : Type} (f : Nat → α) (k : Nat) (x : α) : Nat → α := fun j => if j = k then x else f j

/-- `JsonMapBuilder` (JsonBuilder.hpp:16-56).  `map`: `jMap` (the moment it was begun and what the
arrays contain, in order of arrival); `missing`: `missing_components`, in order of creation, which
is the order of the keys; `code`: `counterCode`. -/
structure Builder where
  map : Option (Nat × List (Kind × Ans)) := none
  missing : List (Nat × Kind × Node) := []
  code : Nat := 0

/-- `isCompleted` (JsonBuilder.cpp:34-37) -/
def Builder.completed (b : Builder) : Bool := b.map.isSome && b.missing.isEmpty

/-- `isActive` (JsonBuilder.hpp:34) -/
def Builder.active (b : Builder) : Bool := b.map.isSome

/-- `reset` (JsonBuilder.cpp:95-99) -/
def Builder.reset (b : Builder) : Builder := { b with map := none, missing := [] }

/-- `generatePlaceHolder` (JsonBuilder.cpp:39-44); `emplace` leaves an existing entry alone -/
def Builder.hold (b : Builder) (k : Kind) (u : Node) : Builder × Nat :=
  let n := b.missing.length + 2
  (if b.missing.any (fun p => p.1 == n) then b else { b with missing := b.missing ++ [(n, k, u)] }, n)

/-- `addComponent` (JsonBuilder.cpp:46-68); a text which is not JSON becomes an empty object there -/
def Builder.add (b : Builder) (a : Ans) (n : Nat) : Builder × Bool :=
  match b.missing.find? (fun p => p.1 == n) with
  | none => (b, false)
  | some p =>
    let m := b.missing.eraseP (fun p => p.1 == n)
    ({ b with map := b.map.map (fun t => (t.1, t.2 ++ [(p.2.1, a)])), missing := m }, m.isEmpty)

/-- `clearComponents(code)` (JsonBuilder.cpp:70-79): the first entry with this code -/
def Builder.clear (b : Builder) (u : Node) : Builder × Bool :=
  if b.missing.any (fun p => p.2.2 == u) then
    let m := b.missing.eraseP (fun p => p.2.2 == u)
    ({ b with missing := m }, m.isEmpty)
  else (b, false)

/-- `generate` (JsonBuilder.cpp:87-93) -/
def Builder.gen (b : Builder) (v i : Nat) : Ans :=
  match b.map with
  | none => .blank
  | some t => .doc v i t.1 t.2

/-- Who waits for an answer: a user (the reply fulfils `activeQueries`, or is routed to the one who
asked), or the node above, whose place holder is `n`. -/
inductive Dest
  | user (q : Nat) | up (n : Nat)
deriving DecidableEq, Repr

/-- an element of `mapBuilders` (CoreBroker.hpp:135-136, CommonCore.hpp:493-494): the builder and the
requesters.  `bad`: `requesters.back()` was used when there were none. -/
structure Slot where
  b : Builder := {}
  reqs : List Dest := []
  bad : Bool := false

/-- The fields of a broker or core this code uses.  `ctr`: what `generateMapObjectCounter` gives
(CoreBroker.cpp:931-942, CommonCore.cpp:5342-5350); `conn u`: the state of the entry of `u` is CONNECTED,
INIT_REQUESTED or OPERATING. -/
structure NSt where
  slot : Nat → Slot := fun _ => {}
  ctr : Nat := 0
  conn : Node → Bool := fun _ => true

/-- What a node sends: a request to a node below, a reply to the node above, an answer for a user. -/
inductive Out
  | down (u i n : Nat)
  | up (i n : Nat) (a : Ans)
  | user (q : Nat) (a : Ans)

/-- One turn of the loop over the brokers (CoreBroker.cpp:4021-4044): a place holder and a request for
each which is connected. -/
def brokerTurn (net : Net) (conn : Node → Bool) (i : Nat) (s : Builder × List Out) (u : Node) : Builder × List Out :=
  if conn u then
    let h := s.1.hold (net.kind u) u
    (h.1, s.2 ++ [.down u i h.2])
  else s

/-- One turn of the loop over the federates (CommonCore.cpp:2824-2843): a federate which is not
busy, or has ended, answers at once (`processQuery`, FederateState.cpp:2905-2926). -/
def coreTurn (busy : Node → Bool) (now i : Nat) (s : Builder × List Out) (u : Node) : Builder × List Out :=
  let h := s.1.hold .fed u
  if busy u then (h.1, s.2 ++ [.down u i h.2])
  else ((h.1.add (.doc u i now []) h.2).1, s.2)

/-- `initializeMapBuilder` (CoreBroker.cpp:3995-4073, CommonCore.cpp:2801-2856) -/
def Builder.init (net : Net) (conn busy : Node → Bool) (now v i : Nat) (b : Builder) : Builder × List Out :=
  let b0 : Builder := { b with map := some (now, []), missing := [] }
  if net.kind v = .broker then (net.kids v).foldl (brokerTurn net conn i) (b0, [])
  else (net.kids v).foldl (coreTurn busy now i) (b0, [])

/-- The part of `generateQueryAnswer` and of `coreQuery` for these queries (CoreBroker.cpp:3858-3889,
CommonCore.cpp:3005-3031): the builder afterwards, what is sent down, and the answer or "#wait". -/
def Builder.query (net : Net) (conn busy : Node → Bool) (now v i ctr : Nat) (b : Builder) : Builder × List Out × Ans :=
  let fresh (b : Builder) : Builder × List Out × Ans :=
    let r := b.init net conn busy now v i
    if r.1.completed then
      let b2 := if net.reuse i then { r.1 with code := ctr } else r.1
      (b2, r.2, b2.gen v i)
    else (r.1, r.2, .wait)
  if net.reuse i then
    if b.completed then
      if ctr = b.code then (b, [], b.gen v i) else fresh b.reset
    else if b.active then (b, [], .wait)
    else fresh b
  else fresh b

/-- A reply to one of those who wait. -/
def Dest.out (i : Nat) (a : Ans) : Dest → Out
  | .user q => .user q a
  | .up n => .up i n a

def Ans.isWait : Ans → Bool
  | .wait => true
  | _ => false

/-- `processLocalQuery` (CoreBroker.cpp:4172-4198) and CMD_BROKER_QUERY in a core
(CommonCore.cpp:5060-5092). -/
def NSt.onReq (net : Net) (busy : Node → Bool) (now v i : Nat) (d : Dest) (x : NSt) : NSt × List Out :=
  let s := x.slot i
  let r := s.b.query net x.conn busy now v i x.ctr
  if r.2.2.isWait then ({ x with slot := upd x.slot i { s with b := r.1, reqs := s.reqs ++ [d] } }, r.2.1)
  else ({ x with slot := upd x.slot i { s with b := r.1 } }, r.2.1 ++ [d.out i r.2.2])

/-- A query to a core by its name, from somewhere else (CommonCore.cpp:5127-5157): whatever
`coreQuery` returns is sent back, even "#wait". -/
def NSt.onNamed (net : Net) (busy : Node → Bool) (now v i q : Nat) (x : NSt) : NSt × List Out :=
  let s := x.slot i
  let r := s.b.query net x.conn busy now v i x.ctr
  ({ x with slot := upd x.slot i { s with b := r.1 } }, r.2.1 ++ [.user q r.2.2])

/-- The answers to all who wait (CoreBroker.cpp:4475-4488, CommonCore.cpp:4314-4328).  In a core only
the last one is compared with `gDirectCoreId`: an answer to an earlier direct user goes to
`routeMessage`, which sends it to nobody. -/
def replies (k : Kind) (i : Nat) (a : Ans) : List Dest → List Out
  | [] => []
  | [d] => [d.out i a]
  | d :: d2 :: ds =>
    (match k, d with
     | .core, .user _ => []
     | _, _ => [d.out i a]) ++ replies k i a (d2 :: ds)

/-- `processQueryResponse` (CoreBroker.cpp:4452-4500, CommonCore.cpp:4300-4338) -/
def NSt.onRep (net : Net) (v i n : Nat) (a : Ans) (x : NSt) : NSt × List Out :=
  let s := x.slot i
  let r := s.b.add a n
  if r.2 then
    let b2 := if net.reuse i then { r.1 with code := x.ctr } else r.1.reset
    ({ x with slot := upd x.slot i { b := b2, reqs := [], bad := s.bad || s.reqs.isEmpty } },
      replies (net.kind v) i (r.1.gen v i) s.reqs)
  else ({ x with slot := upd x.slot i { s with b := r.1 } }, [])

/-- The loop of `checkInFlightQueries` (CoreBroker.cpp:3483-3514), with its `return` at the first
builder which is completed. -/
def NSt.dropLoop (net : Net) (v u : Node) : List Nat → NSt → NSt × List Out
  | [], x => (x, [])
  | i :: is, x =>
    let s := x.slot i
    if s.b.completed then (x, [])
    else
      let r := s.b.clear u
      if r.2 then
        let b2 := if net.reuse i then r.1 else r.1.reset
        let x1 := { x with slot := upd x.slot i { b := b2, reqs := [], bad := s.bad || s.reqs.isEmpty } }
        let o := NSt.dropLoop net v u is x1
        (o.1, replies .broker i (r.1.gen v i) s.reqs ++ o.2)
      else NSt.dropLoop net v u is { x with slot := upd x.slot i { s with b := r.1 } }

/-- The entry of `u` becomes DISCONNECTED (`markAsDisconnected` and `checkInFlightQueries` in
`disconnectBroker`, CoreBroker.cpp:3516-3550). -/
def NSt.drop (net : Net) (v u : Node) (x : NSt) : NSt × List Out :=
  NSt.dropLoop net v u (List.range net.types) { x with conn := upd x.conn u false }

/-- The messages on their way: a request to `u`, and a reply to `v`. -/
inductive Msg
  | req (u i n : Nat)
  | rep (v i n : Nat) (a : Ans)

/-- The whole federation.  `busy f`: the federate's lock is taken, so a query has to wait in its
queue; `asked`: the queries of users, to whom and which one; `answers`: what the users were given. -/
structure Sys where
  node : Node → NSt := fun _ => {}
  flight : List Msg := []
  asked : List (Nat × Nat) := []
  answers : List (Nat × Ans) := []
  now : Nat := 0
  busy : Node → Bool := fun _ => false

/-- What happens: a user asks `v` the query `i` (directly, or a broker from anywhere); a user asks the core
`v` by its name from somewhere else; the `k`-th of the messages on their way is taken; the lock of a federate
is taken or released; the state which `generateMapObjectCounter` sums up changes; broker `v` learns that
`u` has gone; broker `v` sees `u` in the error state (`conn` false, no `checkInFlightQueries`). -/
inductive Ev
  | ask (v i : Nat)
  | named (v i : Nat)
  | take (k : Nat)
  | lock (f : Node) (b : Bool)
  | count (v n : Nat)
  | drop (v u : Node)
  | err (v u : Node)

def Out.msg (p : Node) : Out → List Msg
  | .down u i n => [.req u i n]
  | .up i n a => [.rep p i n a]
  | .user _ _ => []

def Out.ans : Out → List (Nat × Ans)
  | .user q a => [(q, a)]
  | _ => []

/-- `v` becomes `r.1` and what it sends is on its way. -/
def Sys.put (net : Net) (s : Sys) (v : Node) (r : NSt × List Out) : Sys :=
  { s with
    node := upd s.node v r.1
    flight := s.flight ++ r.2.flatMap (Out.msg (net.par v))
    answers := s.answers ++ r.2.flatMap Out.ans
    now := s.now + 1 }

/-- A message arrives.  A federate answers at once (FederateState.cpp:1671-1682). -/
def Sys.arrive (net : Net) (s : Sys) : Msg → Sys
  | .req u i n =>
    if net.kind u = .fed then s.put net u (s.node u, [.up i n (.doc u i s.now [])])
    else s.put net u ((s.node u).onReq net s.busy s.now u i (.up n))
  | .rep v i n a => s.put net v ((s.node v).onRep net v i n a)

def Sys.step (net : Net) (s : Sys) : Ev → Sys
  | .ask v i =>
    { s with asked := s.asked ++ [(v, i)] }.put net v
      ((s.node v).onReq net s.busy s.now v i (.user s.asked.length))
  | .named v i =>
    { s with asked := s.asked ++ [(v, i)] }.put net v
      ((s.node v).onNamed net s.busy s.now v i s.asked.length)
  | .take k =>
    match s.flight[k]? with
    | none => s
    | some m => { s with flight := s.flight.eraseIdx k }.arrive net m
  | .lock f b => { s with busy := upd s.busy f b }
  | .count v n => { s with node := upd s.node v { s.node v with ctr := n } }
  | .drop v u => s.put net v ((s.node v).drop net v u)
  | .err v u => { s with node := upd s.node v { s.node v with conn := upd (s.node v).conn u false } }

def Sys.run (net : Net) (s : Sys) (es : List Ev) : Sys := es.foldl (Sys.step net) s

end Verif.Query
