/-!
# The recorder application

src/helics/apps/Recorder.cpp:391-536: what is recorded for the times granted.
-/
namespace Verif.Recorder

/-- A captured value (src/helics/apps/Recorder.hpp:127-140).  Simplification: the iteration is any number; the code has 16 bits for it. -/
structure Point where
  time : Int
  iteration : Nat
  sub : Nat
  value : String
  first : Bool
  deriving DecidableEq, Repr

/-- What a request for time gives: the time, whether it is a new one (`NEXT_STEP`), the subscriptions with a new value in the order of
`subscriptions`, and what is waiting at the endpoints, one after the other, the clone endpoint last. -/
structure Grant where
  time : Int
  nextStep : Bool
  updates : List (Nat × String) := []
  msgs : List (List Nat) := []
  deriving DecidableEq, Repr

/-- What is recorded, and the statistics (src/helics/apps/Recorder.hpp:155-165). -/
structure State where
  points : List Point := []
  cnt : Nat → Nat := fun _ => 0
  lastVal : Nat → String := fun _ => ""
  messages : List Nat := []

/-- One new value (src/helics/apps/Recorder.cpp:394-440). -/
def captureValue (time : Int) (iteration : Nat) (s : State) (u : Nat × String) : State :=
  { s with
    points := s.points ++ [{ time := time, iteration := iteration, sub := u.1, value := u.2, first := s.cnt u.1 == 0 }]
    cnt := fun i => if i = u.1 then s.cnt i + 1 else s.cnt i
    lastVal := fun i => if i = u.1 then u.2 else s.lastVal i }

/-- `captureForCurrentTime` (src/helics/apps/Recorder.cpp:391-471). -/
def capture (iteration : Nat) (s : State) (g : Grant) : State :=
  let s' := g.updates.foldl (captureValue g.time iteration) s
  { s' with messages := s'.messages ++ g.msgs.flatten }

/-- The iteration recorded for a grant (src/helics/apps/Recorder.cpp:499-511). -/
def iterFor (allow : Bool) (iteration : Nat) (g : Grant) : Nat :=
  if allow then (if g.nextStep then 0 else iteration) else 0

/-- The loop of `runTo` (src/helics/apps/Recorder.cpp:496-530). -/
def loop (allow : Bool) (stop : Int) : Nat → State → List Grant → State
  | _, s, [] => s
  | iteration, s, g :: r =>
    let i := iterFor allow iteration g
    let s' := capture i s g
    if stop ≤ g.time then s' else loop allow stop (i + 1) s' r

/-- A call of `runTo` and what its requests for time give. -/
structure Call where
  stop : Int
  grants : List Grant
  deriving DecidableEq, Repr

/-- Several calls of `runTo` (src/helics/apps/Recorder.cpp:473-536): the iteration is counted from zero in every call.  What `initialize` records
(src/helics/apps/Recorder.cpp:348-363) is the call with stop time 0 and the grants -1 and 0, both new times. -/
def run (allow : Bool) (calls : List Call) : State := calls.foldl (fun s c => loop allow c.stop 0 s c.grants) {}

end Verif.Recorder
