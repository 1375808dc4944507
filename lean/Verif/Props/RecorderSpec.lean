import Verif.Model.Recorder
/-!
# C71: the recorder
-/
namespace Verif.Recorder

/-- The grants a call gets to: up to the first one that reaches the stop time. -/
def taken (stop : Int) : List Grant → List Grant
  | [] => []
  | g :: r => if stop ≤ g.time then [g] else g :: taken stop r

/-- Every grant of a list, with the ones before it. -/
def withBefore (pre : List Grant) : List Grant → List (List Grant × Grant)
  | [] => []
  | g :: r => (pre, g) :: withBefore (pre ++ [g]) r

/-- How many grants there were since the last new time, that one included. -/
def since (pre : List Grant) : Nat :=
  (pre.reverse.takeWhile fun g => !g.nextStep).length + (if pre.any (·.nextStep) then 1 else 0)

/-- The iteration of a grant: none at a new time, else the number of grants since. -/
def iteration (allow : Bool) (pre : List Grant) (g : Grant) : Nat := if allow = true ∧ g.nextStep = false then since pre else 0

/-- What a call should record: for every grant, in order, every new value with the time and iteration of the grant. -/
def expected (allow : Bool) (c : Call) : List (Int × Nat × Nat × String) :=
  (withBefore [] (taken c.stop c.grants)).flatMap fun x => x.2.updates.map fun u => (x.2.time, iteration allow x.1 x.2, u.1, u.2)

/-- What a point says. -/
def Point.says (p : Point) : Int × Nat × Nat × String := (p.time, p.iteration, p.sub, p.value)

/-- Grants as a federate at time `t` gets them: a new time is later, and otherwise the time stays. -/
def Plausible : Int → List Grant → Prop
  | _, [] => True
  | t, g :: r => (if g.nextStep then t < g.time else g.time = t) ∧ Plausible g.time r

/-- The time after some grants. -/
def endTime (t : Int) (gs : List Grant) : Int := (gs.getLast?.map (·.time)).getD t

/-- Calls of a federate at time `t` that come to their end; without iteration every grant is a new time. -/
def PlausibleRun (allow : Bool) : Int → List Call → Prop
  | _, [] => True
  | t, c :: r => Plausible t (taken c.stop c.grants) ∧ (∃ g ∈ c.grants, c.stop ≤ g.time) ∧ (allow = false → ∀ g ∈ c.grants, g.nextStep = true) ∧
    PlausibleRun allow (endTime t (taken c.stop c.grants)) r

/-- The order in which points can be played back. -/
def Before (p q : Point) : Prop := p.time < q.time ∨ p.time = q.time ∧ p.iteration ≤ q.iteration

end Verif.Recorder
