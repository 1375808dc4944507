/-!
# Message timers

Models `MessageTimer` (src/helics/core/MessageTimer.cpp:15-172): numbered timers, each holding a message and a time; the
message is handed over by a handler of the asio timer, in another thread.

What is assumed of asio: a handler is queued at or after the time it waits for; setting a new time or cancelling drops the
handlers that still wait (they end with `operation_aborted`, which does nothing, src/helics/core/MessageTimer.cpp:23-35), but not
those already queued; queued handlers run at any later moment.  Each function runs under the lock, so it is one step; the call of
`sendFunction` follows the release of the lock and is recorded when the message is taken out.
-/
namespace Verif
namespace Timers

/-- one timer: `none` is a message with the action `CMD_IGNORE` -/
structure Slot where
  msg : Option Nat
  due : Int
  deriving DecidableEq, Repr

/-- a handler of a timer: waiting for a time, or queued -/
structure Wait where
  idx : Nat
  time : Int
  queued : Bool := false
  deriving DecidableEq, Repr

/-- a message handed over: number of the timer, message, time -/
structure Sent where
  idx : Nat
  msg : Nat
  time : Int
  deriving DecidableEq, Repr

structure S where
  now : Int := 0
  slots : List Slot := []
  waits : List Wait := []
  sent : List Sent := []
  deriving DecidableEq, Repr

inductive Ev
  /-- time passes -/
  | tick (d : Nat)
  /-- the time a handler waits for has come: it is queued -/
  | fire (k : Nat)
  /-- a queued handler runs -/
  | run (k : Nat)
  | add (t : Int) (m : Nat)
  | cancel (i : Nat)
  | cancelAll
  | update (i : Nat) (t : Int) (m : Nat)
  | move (i : Nat) (t : Int)
  | delay (i : Nat) (d : Int)
  | setMsg (i : Nat) (m : Nat)
  deriving DecidableEq, Repr

namespace S

/-- `expires_at` and `cancel` of an asio timer: the waiting handlers end -/
def drop (s : S) (i : Nat) : List Wait := s.waits.filter fun w => w.queued || w.idx != i

/-- `addTimer` (src/helics/core/MessageTimer.cpp:42-65). -/
def add (s : S) (t : Int) (m : Nat) : S :=
  { s with slots := s.slots ++ [{ msg := some m, due := t }]
           waits := s.waits ++ [{ idx := s.slots.length, time := t, queued := !decide (t > s.now) }] }

/-- `cancelTimer` (src/helics/core/MessageTimer.cpp:67-74). -/
def cancel (s : S) (i : Nat) : S :=
  match s.slots[i]? with
  | some x => { s with slots := s.slots.set i { x with msg := none }, waits := s.drop i }
  | none => s

/-- `cancelAll` (src/helics/core/MessageTimer.cpp:76-85). -/
def cancelAll (s : S) : S :=
  { s with slots := s.slots.map fun x => { x with msg := none }, waits := s.waits.filter (·.queued) }

/-- `updateTimer` with a message (src/helics/core/MessageTimer.cpp:87-102). -/
def update (s : S) (i : Nat) (t : Int) (m : Nat) : S :=
  match s.slots[i]? with
  | some _ => { s with slots := s.slots.set i { msg := some m, due := t }, waits := s.drop i ++ [{ idx := i, time := t }] }
  | none => s

/-- `updateTimer` without a message (src/helics/core/MessageTimer.cpp:133-148). -/
def move (s : S) (i : Nat) (t : Int) : S :=
  match s.slots[i]? with
  | some x => { s with slots := s.slots.set i { x with due := t }, waits := s.drop i ++ [{ idx := i, time := t }] }
  | none => s

/-- `addTimeToTimer` (src/helics/core/MessageTimer.cpp:111-131). -/
def delay (s : S) (i : Nat) (d : Int) : S :=
  match s.slots[i]? with
  | some x =>
    if x.msg = none then s
    else { s with slots := s.slots.set i { x with due := x.due + d }, waits := s.drop i ++ [{ idx := i, time := x.due + d }] }
  | none => s

/-- `updateMessage` (src/helics/core/MessageTimer.cpp:150-157). -/
def setMsg (s : S) (i : Nat) (m : Nat) : S :=
  match s.slots[i]? with
  | some x => { s with slots := s.slots.set i { x with msg := some m } }
  | none => s

/-- `sendMessage` (src/helics/core/MessageTimer.cpp:159-172). -/
def send (s : S) (i : Nat) : S :=
  match s.slots[i]? with
  | some x =>
    if s.now ≥ x.due then
      match x.msg with
      | some m => { s with slots := s.slots.set i { x with msg := none }, sent := s.sent ++ [{ idx := i, msg := m, time := s.now }] }
      | none => s
    else s
  | none => s

/-- One event; handlers are those of asio (src/helics/core/MessageTimer.cpp:23-35). -/
def step (s : S) : Ev → S
  | .tick d => { s with now := s.now + d }
  | .fire k =>
    match s.waits[k]? with
    | some w => if w.queued = false ∧ w.time ≤ s.now then { s with waits := s.waits.set k { w with queued := true } } else s
    | none => s
  | .run k =>
    match s.waits[k]? with
    | some w => if w.queued then { s with waits := s.waits.eraseIdx k }.send w.idx else s
    | none => s
  | .add t m => s.add t m
  | .cancel i => s.cancel i
  | .cancelAll => s.cancelAll
  | .update i t m => s.update i t m
  | .move i t => s.move i t
  | .delay i d => s.delay i d
  | .setMsg i m => s.setMsg i m

end S
end Timers
end Verif
