/-!
# The source application

src/helics/apps/Source.cpp:229-264, 365-401: sources publish the values of their generators at a fixed period.
-/
namespace Verif.Source

/-- A source: the time of its next value, its period, and the times at which it has published (src/helics/apps/Source.hpp:32-43).
Simplification: times are exact, every source has a generator, and the values themselves are left out. -/
structure Src where
  next : Int
  period : Int
  out : List Int := []
  deriving DecidableEq, Repr

/-- `runSource` (src/helics/apps/Source.cpp:365-380). -/
def fire (c : Int) (s : Src) : Src :=
  if s.next ≤ c then
    let n := s.next + s.period
    { s with next := if n < c then n + ((c - n) / s.period * s.period + s.period) else n, out := s.out ++ [c] }
  else s

/-- The part of `runSourceLoop` before time zero (src/helics/apps/Source.cpp:384-392): the time is just before zero, written -1 here. -/
def early (s : Src) : Src := if s.next < 0 then { fire (-1) s with next := 0 } else s

/-- The smallest next time (src/helics/apps/Source.cpp:393-400, 249-253). -/
def minNext : List Src → Option Int
  | [] => none
  | s :: r => match minNext r with
    | none => some s.next
    | some m => some (if s.next < m then s.next else m)

/-- The application: the federate's time and the sources. -/
structure State where
  cur : Int
  srcs : List Src
  deriving DecidableEq, Repr

/-- The first call of `runTo` up to the loop (src/helics/apps/Source.cpp:231-245). -/
def begin_ (l : List Src) : State := { cur := 0, srcs := (l.map early).map (fire 0) }

/-- One round of the loop of `runTo` (src/helics/apps/Source.cpp:256-263): the next time is asked for if it is not past the stop time, and `g` is
granted. -/
inductive Step (stop : Int) (g : Int) : State → State → Prop
  | round {s : State} (t : Int) : minNext s.srcs = some t → t ≤ stop → t ≤ g → s.cur < g → Step stop g s { cur := g, srcs := s.srcs.map (fire g) }

/-- The loop of `runTo` is over (src/helics/apps/Source.cpp:256). -/
def Finished (stop : Int) (s : State) : Prop := ∀ t, minNext s.srcs = some t → stop < t

/-- Any calls of `runTo`, any grants (src/helics/apps/Source.cpp:229-264). -/
inductive Reach (l : List Src) : State → Prop
  | start : Reach l (begin_ l)
  | step {s s' : State} {stop g : Int} : Reach l s → Step stop g s s' → Reach l s'

/-- The same when the federate is granted the times it asks for. -/
inductive Exact (l : List Src) : State → Prop
  | start : Exact l (begin_ l)
  | step {s s' : State} {stop g : Int} : Exact l s → Step stop g s s' → minNext s.srcs = some g → Exact l s'

end Verif.Source
