import Verif.Model.Time
/-!
# The player application

src/helics/apps/Player.cpp:49-56, 512-516, 565-681.
-/
namespace Verif.Player
open Verif

/-- `ValueSetter` (src/helics/apps/Player.hpp:23-30).  Simplification: `index` is found from the name before anything is sent
(src/helics/apps/Player.cpp:553-558). -/
structure Point where
  time : Time
  iteration : Int := 0
  name : String
  value : String
  deriving DecidableEq, Repr

/-- `MessageHolder` (src/helics/apps/Player.hpp:32-36). -/
structure Msg where
  sendTime : Time
  source : String
  dest : String
  data : String
  deriving DecidableEq, Repr

/-- `!vComp(q, p)`: `p` may come before `q` in a sorted list (src/helics/apps/Player.cpp:49-52). -/
def pointLe (p q : Point) : Prop := p.time < q.time ∨ (p.time = q.time ∧ p.iteration ≤ q.iteration)
/-- `!mComp(n, m)` (src/helics/apps/Player.cpp:53-56). -/
def msgLe (m n : Msg) : Prop := m.sendTime ≤ n.sendTime

/-- A call of `publish` or `send`, with the federate's time (`none` in initializing mode) and the number of the iteration at that time
(src/helics/apps/Player.cpp:581, 590, 600). -/
inductive Out
  | value (p : Point) (at_ : Option Time) (iter : Int)
  | message (m : Msg) (at_ : Option Time)
  deriving DecidableEq, Repr

/-- The player.  `pts` and `msgs` are what is left from `pointIndex` and `messageIndex` on (src/helics/apps/Player.hpp:241-244). -/
structure St where
  pts : List Point
  msgs : List Msg
  cur : Time := 0
  iter : Int := 0
  out : List Out := []

/-- `Player::sendInformation` (src/helics/apps/Player.cpp:577-607), called when the federate's time is `at_`. -/
def send (s : St) (sendTime : Time) (iteration : Int) (at_ : Option Time) : St :=
  let before := s.pts.takeWhile fun p => decide (p.time < sendTime)
  let rest := s.pts.dropWhile fun p => decide (p.time < sendTime)
  let now := rest.takeWhile fun p => decide (p.time = sendTime) && decide (p.iteration = iteration)
  let later := rest.dropWhile fun p => decide (p.time = sendTime) && decide (p.iteration = iteration)
  let ms := s.msgs.takeWhile fun m => decide (m.sendTime ≤ sendTime)
  { s with
    pts := later
    msgs := s.msgs.dropWhile fun m => decide (m.sendTime ≤ sendTime)
    out := s.out ++ (before ++ now).map (fun p => .value p at_ iteration) ++ ms.map fun m => .message m at_ }

/-- The start of `Player::runTo` in startup mode (src/helics/apps/Player.cpp:612-621); `-Time::epsilon()` is -1. -/
def begin_ (pts : List Point) (msgs : List Msg) : St :=
  send (send { pts := pts, msgs := msgs } (-1) 0 none) 0 0 (some 0)

/-- The start of `Player::runTo` in executing mode (src/helics/apps/Player.cpp:622-639). -/
def reenter (s : St) : St :=
  { s with
    pts := s.pts.dropWhile fun p => decide (p.time ≤ s.cur)
    msgs := s.msgs.dropWhile fun m => decide (m.sendTime ≤ s.cur)
    iter := 0 }

/-- What the loop of `Player::runTo` does next. -/
inductive Next
  | leave
  | ask (t : Time)
  | iterate (t : Time)
  deriving DecidableEq, Repr

/-- The head of the loop of `Player::runTo` (src/helics/apps/Player.cpp:645-663). -/
def next (stop : Time) (s : St) : Next :=
  let t := match s.pts.head? with | some p => min maxVal p.time | none => maxVal
  let it := match s.pts.head? with | some p => p.iteration | none => 0
  let t' := match s.msgs.head? with | some m => min t m.sendTime | none => t
  let it' := match s.msgs.head? with | some _ => 0 | none => it
  if t' = maxVal then .leave
  else if t' > stop then .leave
  else if it' = 0 ∨ t' > s.cur then .ask t' else .iterate t'

/-- One round of `Player::runTo` (src/helics/apps/Player.cpp:663-680).  `env c t g` says that a federate at time `c` that asks for `t` may be
granted `g`.  Simplification: a forced iteration is always answered with another iteration at the same time. -/
inductive Step (env : Time → Time → Time → Prop) (stop : Time) : St → St → Prop
  | ask (s : St) (t g : Time) : next stop s = .ask t → env s.cur t g → Step env stop s (send { s with cur := g, iter := 0 } g 0 (some g))
  | iterate (s : St) (t : Time) : next stop s = .iterate t →
      Step env stop s (send { s with iter := s.iter + 1 } t (s.iter + 1) (some s.cur))
  | wait (s : St) (g : Time) : next stop s = .leave → s.cur < stop → env s.cur stop g → Step env stop s { s with cur := g, iter := 0 }

/-- `runTo(stop)` is over (src/helics/apps/Player.cpp:655-661, 678-681). -/
def Finished (stop : Time) (s : St) : Prop := next stop s = .leave ∧ stop ≤ s.cur

/-- The states of a player given the points `ps` and messages `ms` during the call `runTo(stop)`, the first or a later one
(src/helics/apps/Player.cpp:512-516, 609-681).  `std::sort` gives some sorted arrangement.  Simplification: later calls have later stop times and the first stop time is not negative; a call
with an earlier stop time does nothing. -/
inductive Run (env : Time → Time → Time → Prop) (ps : List Point) (ms : List Msg) : St → Time → Prop
  | start (qs : List Point) (ns : List Msg) (stop : Time) : qs.Perm ps → qs.Pairwise pointLe → ns.Perm ms → ns.Pairwise msgLe → 0 ≤ stop →
      Run env ps ms (begin_ qs ns) stop
  | step (s s' : St) (stop : Time) : Run env ps ms s stop → Step env stop s s' → Run env ps ms s' stop
  | again (s : St) (stop stop' : Time) : Run env ps ms s stop → Finished stop s → stop ≤ stop' → Run env ps ms (reenter s) stop'

end Verif.Player
