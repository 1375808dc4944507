/-!
# Real-time federates

Models the real-time part of `FederateState::requestTime` (src/helics/core/FederateState.cpp:690-779), the timer it uses
(src/helics/core/MessageTimer.cpp, see `Model/Timers`) and what a federate does with `CMD_FORCE_TIME_GRANT`
(src/helics/core/TimeCoordinatorProcessing.cpp:265-273, src/helics/core/TimeCoordinator.cpp:1265-1281).

The time coordinator is replaced by whatever times it may grant: a command in the queue grants any time.  All times are
nanoseconds; `start`, `lag` and `lead` do not change during a run.
-/
namespace Verif
namespace RealTime

structure Cfg where
  /-- the clock when the federate entered executing mode (src/helics/core/FederateState.cpp:599) -/
  start : Int
  /-- `rt_lag`; `none` is the largest time -/
  lag : Option Int
  lead : Int

inductive Cmd
  /-- `CMD_TIME_REQUEST` of the federate itself -/
  | req (n : Int)
  /-- a command on which the coordinator grants the time `t` -/
  | grant (t : Int)
  /-- `CMD_FORCE_TIME_GRANT` -/
  | force (t : Int)
  deriving DecidableEq, Repr

/-- what a call of `requestTime` returned: asked for, granted, the clock, and whether it was forced -/
structure Ret where
  asked : Int
  granted : Int
  clock : Int
  forced : Bool
  deriving DecidableEq, Repr

structure S where
  now : Int
  granted : Int := 0
  /-- `timeGranted_mode` is false: the coordinator has the request -/
  requesting : Bool := false
  /-- the call under way -/
  call : Option Int := none
  /-- the message of the timer (a time to force) and when it is due -/
  timer : Option (Int × Int) := none
  queue : List Cmd := []
  rets : List Ret := []
  deriving DecidableEq, Repr

inductive Ev
  | tick (d : Nat)
  /-- `requestTime` is called -/
  | request (n : Int)
  /-- the handler of the timer takes the message -/
  | fire
  /-- a command that will grant `t` arrives -/
  | coord (t : Int)
  /-- the next command is processed -/
  | process
  deriving DecidableEq, Repr

namespace S

/-- The call: the request is queued, the timer set, or the grant forced at once (src/helics/core/FederateState.cpp:697-738). -/
def request (c : Cfg) (s : S) (n : Int) : S :=
  match s.call with
  | some _ => s
  | none =>
    let s := { s with call := some n, queue := s.queue ++ [.req n] }
    match c.lag with
    | none => s
    | some lag =>
      let lead := (n + lag) - (s.now - c.start)
      if lead > 0 then { s with timer := some (n, s.now + lead) }
      else { s with queue := s.queue ++ [.force n] }

/-- The sleep before the return (src/helics/core/FederateState.cpp:766-775). -/
def sleep (c : Cfg) (s : S) : S :=
  let gap := s.now - c.start
  if s.granted - gap > c.lead then
    let lead := (s.granted - c.lead) - gap
    if lead > 5000000 then { s with now := s.now + lead } else s
  else s

/-- The return: the timer is cancelled, then the federate sleeps (src/helics/core/FederateState.cpp:757-779). -/
def ret (c : Cfg) (s : S) (n : Int) (forced : Bool) : S :=
  let s := { s with requesting := false, call := none, timer := none }.sleep c
  { s with rets := s.rets ++ [{ asked := n, granted := s.granted, clock := s.now, forced := forced }] }

/-- One command taken from the queue by the call under way (src/helics/core/TimeCoordinatorProcessing.cpp:255-273); the queue is
processed by calls only (src/helics/core/FederateState.cpp:755). -/
def process (c : Cfg) (s : S) : S :=
  match s.call, s.queue with
  | some n, cmd :: q =>
    let s := { s with queue := q }
    match cmd with
    | .req _ => { s with requesting := true }
    | .grant t => if s.requesting then { s with granted := max s.granted t }.ret c n false else s
    | .force t =>
      if t < s.granted then s
      else { s with granted := if s.granted < t then t else s.granted }.ret c n true
  | _, _ => s

/-- The handler (src/helics/core/MessageTimer.cpp:159-172): once, and not before the time. -/
def fire (s : S) : S :=
  match s.timer with
  | some (t, due) => if s.now ≥ due then { s with timer := none, queue := s.queue ++ [.force t] } else s
  | none => s

/-- One event of the federate, the timer (src/helics/core/FederateState.cpp:690-779, src/helics/core/MessageTimer.cpp:159-172) or
the outside. -/
def step (c : Cfg) (s : S) : Ev → S
  | .tick d => { s with now := s.now + d }
  | .request n => s.request c n
  | .fire => s.fire
  | .coord t => { s with queue := s.queue ++ [.grant t] }
  | .process => s.process c

end S
end RealTime
end Verif
