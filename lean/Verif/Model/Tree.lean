import Verif.Model.Net
import Verif.Model.Forward
/-!
# A federation connected through cores and brokers

Federates (`Verif.Model.Fed`) at the leaves, and cores and brokers with their time coordinators (`Verif.Model.Forward`).
Commands and data travel from neighbour to neighbour.  Every link keeps its order: the transmitting side of a
connection is one queue emptied by one thread (src/helics/network/CommsInterface.cpp:199-215,
src/helics/network/CommsInterface.hpp:154-155), and what arrives is pushed on the queue of the receiver, which is emptied by one thread
(src/helics/core/BrokerBase.cpp:934).  What passes through a core or broker is sent on at once
(`CommonCore::routeMessage`, src/helics/core/CommonCore.cpp:5435-5555; `CoreBroker::transmit`); what its own coordinator sends is first
pushed on its own queue (src/helics/core/BrokerBase.cpp:547) and is sent on later (`Tmove.flush`).  Which neighbour is next is
given by `hop`.  Not modelled here: filters on the way, loss of messages, the handling of errors, and what cores
and brokers decide by themselves, which appears as arbitrary commands (`Tmove.env`).  Reports to "the broker"
(destination 0) do not take part in timing and are left out.
-/
namespace Verif

/-- What travels over a link: a timing command, or data with its time stamp, sender and final destination (a published
value, or a message when the flag is set). -/
inductive Parcel
  | cmd (m : Msg)
  | data (stamp : Time) (src dst : FedId) (isMessage : Bool)
  deriving DecidableEq, Repr

/-- The federates, the coordinators of cores and brokers, what is in their own queues, and what is on each link. -/
structure Tree where
  fed : FedId → Fed
  fwd : FedId → Fwd
  pend : FedId → List Msg
  chan : FedId → FedId → List Parcel

/-- What can happen next. -/
inductive Tmove
  /-- the user of federate `i` makes a call -/
  | user (i : FedId) (o : FedOp)
  /-- a command that does not come over a modelled link is handed to node `n` -/
  | env (n : FedId) (cmd : Msg)
  /-- the user of federate `i` sends data to federate `dst`, for time `t` or as soon as possible
  (src/helics/core/CommonCore.cpp:1831,2200,2239,2365: `nextAllowedSendTime()` is the earliest) -/
  | send (i dst : FedId) (t : Time) (isMessage : Bool)
  /-- the oldest parcel on the link from `u` to `v` arrives; `noticed` says whether data arriving at its
  destination reaches an interface that the time coordinator is told about
  (src/helics/core/FederateState.cpp:1890-1945) -/
  | deliver (u v : FedId) (noticed : Bool)
  /-- core or broker `n` takes the oldest command of its own coordinator and sends it on -/
  | flush (n : FedId)
  /-- core or broker `n` learns that the federation has been initialized -/
  | start (n : FedId)
  /-- core or broker `n` disconnects its coordinator (src/helics/core/CommonCore.cpp:5190,5311,5402,
  src/helics/core/CoreBroker.cpp:1088,1331,3388-3389) -/
  | leave (n : FedId)
  deriving DecidableEq, Repr

namespace Tree

/-- The commands sent between two moments, without the reports to the broker. -/
def fresh (old new : List Packet) : List Msg :=
  ((new.drop old.length).flatMap Packet.parts).filter (fun m => m.dest != parentBroker)

/-- Federate `i` takes one step; what it sends is put on its links. -/
def fedAct (hop : FedId → FedId → FedId) (limit : Int) (s : Tree) (i : FedId) (o : FedOp) : Tree × Option (FedId × Time) :=
  let r := (s.fed i).step limit o
  ({ s with
      fed := fun k => if k = i then r.1 else s.fed k
      chan := fun a b => if a = i then
          s.chan a b ++ ((fresh (s.fed i).tc.out r.1.tc.out).filter (fun m => hop i m.dest == b)).map .cmd
        else s.chan a b },
   (Fed.returned r).map (fun t => (i, t)))

/-- The coordinator of core or broker `n` takes one step; what it sends goes to the queue of `n`. -/
def fwdAct (s : Tree) (n : FedId) (w : Fwd) : Tree :=
  { s with
    fwd := fun k => if k = n then w else s.fwd k
    pend := fun k => if k = n then s.pend k ++ fresh (s.fwd n).out w.out else s.pend k }

/-- The oldest parcel of a link is taken away. -/
def take (s : Tree) (u v : FedId) : Tree :=
  { s with chan := fun a b => if a = u ∧ b = v then (s.chan a b).tail else s.chan a b }

/-- A parcel is put on a link. -/
def put (s : Tree) (u v : FedId) (x : Parcel) : Tree :=
  { s with chan := fun a b => if a = u ∧ b = v then s.chan a b ++ [x] else s.chan a b }

/-- The oldest command in the queue of `n` is taken away. -/
def unqueue (s : Tree) (n : FedId) : Tree :=
  { s with pend := fun k => if k = n then (s.pend k).tail else s.pend k }

/-- A command is handed to the node it is addressed to. -/
def hand (hop : FedId → FedId → FedId) (limit : Int) (s : Tree) (n : FedId) (m : Msg) : Tree × Option (FedId × Time) :=
  if FedId.isFederate n then s.fedAct hop limit n (.msg m) else (s.fwdAct n ((s.fwd n).handle m), none)

/-- One move, and the time granted by it, if any.  Moves that cannot be made change nothing; federates do not
send anything on. -/
def step (hop : FedId → FedId → FedId) (limit : Int) (s : Tree) : Tmove → Tree × Option (FedId × Time)
  | .user i o => if FedId.isFederate i then s.fedAct hop limit i o else (s, none)
  | .env n cmd => s.hand hop limit n cmd
  | .send i dst t isMessage =>
    if FedId.isFederate i && Net.inControl (s.fed i) then
      (s.put i (hop i dst) (.data (max t (Net.stampOf (s.fed i))) i dst isMessage), none)
    else (s, none)
  | .deliver u v noticed =>
    match s.chan u v with
    | [] => (s, none)
    | .cmd m :: _ =>
      if m.dest = v then (s.take u v).hand hop limit v m
      else if FedId.isFederate v then (s.take u v, none)
      else ((s.take u v).put v (hop v m.dest) (.cmd m), none)
    | .data t src dst isMessage :: _ =>
      if dst = v then
        if noticed && FedId.isFederate v then
          (s.take u v).fedAct hop limit v
            (if isMessage then .message { action := .sendMessage, source := src, dest := v, actionTime := t }
             else .value { action := .pub, source := src, dest := v, actionTime := t })
        else (s.take u v, none)
      else if FedId.isFederate v then (s.take u v, none)
      else ((s.take u v).put v (hop v dst) (.data t src dst isMessage), none)
  | .flush n =>
    match s.pend n with
    | [] => (s, none)
    | m :: _ => ((s.unqueue n).put n (hop n m.dest) (.cmd m), none)
  | .start n => if FedId.isFederate n then (s, none) else (s.fwdAct n (s.fwd n).start, none)
  | .leave n => if FedId.isFederate n then (s, none) else (s.fwdAct n (s.fwd n).disconnect, none)

/-- The federation after a list of moves. -/
def run (hop : FedId → FedId → FedId) (limit : Int) (s : Tree) (ms : List Tmove) : Tree :=
  ms.foldl (fun s m => (s.step hop limit m).1) s

/-- All times granted by a list of moves. -/
def grants (hop : FedId → FedId → FedId) (limit : Int) (s : Tree) : List Tmove → List (FedId × Time)
  | [] => []
  | m :: ms => (s.step hop limit m).2.toList ++ grants hop limit (s.step hop limit m).1 ms

/-- At the start every federate is newly registered, no core or broker has a dependency, and nothing is on the way. -/
def start (ok nonGranting globalTime : FedId → Bool) (core restrictive : FedId → Bool) : Tree :=
  { fed := fun i => Fed.initial i (ok i) (nonGranting i) (globalTime i)
    fwd := fun n => { self := n, core := core n, restrictive := restrictive n }
    pend := fun _ => []
    chan := fun _ _ => [] }

end Tree
end Verif
