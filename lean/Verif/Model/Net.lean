import Verif.Model.FedRun
/-!
# A federation

Any number of federates, each the state machine of `Verif.Model.Fed`, and for each ordered pair of federates a
first-in first-out channel.  Everything a federate sends to another one, timing commands and data alike, is pushed
on its core's queue (src/helics/core/CommonCore.cpp:1826-1859 for values, src/helics/core/FederateState.cpp:115,359-372
for the coordinator's commands) and travels the same route, so its order is kept; between different pairs no order is assumed.  Not modelled here: filters and translators on the way, loss of
messages, and the cores' and brokers' own decisions, which appear as arbitrary commands (`Move.core`).
-/
namespace Verif

/-- The messages of a packet (src/helics/core/ActionMessage.cpp:971-980). -/
def Packet.parts : Packet → List Msg
  | .single m => [m]
  | .multi ms => ms

/-- What travels from one federate to another: a timing command, or data with its time stamp (a published value, or
a message when the flag is set). -/
inductive Item
  | cmd (m : Msg)
  | data (stamp : Time) (isMessage : Bool)
  deriving DecidableEq, Repr

/-- The federates, and what is on the way from the first to the second. -/
structure Net where
  fed : FedId → Fed
  chan : FedId → FedId → List Item

/-- What can happen next. -/
inductive Move
  /-- the user of `i` makes a call -/
  | user (i : FedId) (o : FedOp)
  /-- the core of `i` hands it a command of its own or of a broker -/
  | core (i : FedId) (cmd : Msg)
  /-- the oldest item on the way from `i` to `j` arrives; `noticed` says whether arriving data reaches an
  interface that the time coordinator is told about (src/helics/core/FederateState.cpp:1890-1945) -/
  | deliver (i j : FedId) (noticed : Bool)
  /-- the user of `i` sends data to `j`, for time `t` or as soon as possible
  (src/helics/core/CommonCore.cpp:1831,2200,2239,2365: `nextAllowedSendTime()` is the earliest) -/
  | send (i j : FedId) (t : Time) (isMessage : Bool)
  deriving DecidableEq, Repr

namespace Net

/-- `TimeCoordinator::allowedSendTime` (src/helics/core/TimeCoordinator.hpp:132), the time stamp of data sent now. -/
def stampOf (f : Fed) : Time := f.tc.granted + f.tc.info.outputDelay

/-- The user of the federate is in control: executing, no call pending, not disconnected. -/
def inControl (f : Fed) : Bool := decide (f.state = .executing) && f.mode && !f.tc.disconnected

/-- The commands federate `new` has sent since it was `old`, addressed to `j`. -/
def sentTo (old new : Fed) (j : FedId) : List Item :=
  (((new.tc.out.drop old.tc.out.length).flatMap Packet.parts).filter (fun m => m.dest == j)).map .cmd

/-- Federate `i` takes one step; what it sends is appended to the channels. -/
def act (limit : Int) (s : Net) (i : FedId) (o : FedOp) : Net × Option (FedId × Time) :=
  let r := (s.fed i).step limit o
  ({ fed := fun k => if k = i then r.1 else s.fed k
     chan := fun a b => if a = i then s.chan a b ++ sentTo (s.fed i) r.1 b else s.chan a b },
   (Fed.returned r).map (fun t => (i, t)))

/-- The oldest item of a channel is taken away. -/
def take (s : Net) (i j : FedId) : Net :=
  { s with chan := fun a b => if a = i ∧ b = j then (s.chan a b).tail else s.chan a b }

/-- One move, and the time granted by it, if any.  Moves that cannot be made change nothing. -/
def step (limit : Int) (s : Net) : Move → Net × Option (FedId × Time)
  | .user i o => s.act limit i o
  | .core i cmd => s.act limit i (.msg cmd)
  | .deliver i j noticed =>
    match s.chan i j with
    | [] => (s, none)
    | .cmd m :: _ => (s.take i j).act limit j (.msg m)
    | .data t isMessage :: _ =>
      if noticed then
        (s.take i j).act limit j (if isMessage then .message { action := .sendMessage, source := i, dest := j, actionTime := t }
          else .value { action := .pub, source := i, dest := j, actionTime := t })
      else (s.take i j, none)
  | .send i j t isMessage =>
    if inControl (s.fed i) then
      ({ s with chan := fun a b => if a = i ∧ b = j then s.chan a b ++ [.data (max t (stampOf (s.fed i))) isMessage]
                                   else s.chan a b }, none)
    else (s, none)

/-- The federation after a list of moves. -/
def run (limit : Int) (s : Net) (ms : List Move) : Net := ms.foldl (fun s m => (s.step limit m).1) s

/-- All times granted by a list of moves. -/
def grants (limit : Int) (s : Net) : List Move → List (FedId × Time)
  | [] => []
  | m :: ms => (s.step limit m).2.toList ++ grants limit (s.step limit m).1 ms

/-- At the start every federate is newly registered and nothing is on the way. -/
def start (ok nonGranting globalTime : FedId → Bool) : Net :=
  { fed := fun i => Fed.initial i (ok i) (nonGranting i) (globalTime i), chan := fun _ _ => [] }

end Net
end Verif
