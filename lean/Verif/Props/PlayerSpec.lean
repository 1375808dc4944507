import Verif.Model.Player
/-!
# C68: what a player sends
-/
namespace Verif.Player
open Verif

/-- The values published, in order. -/
def values : List Out → List Point
  | [] => []
  | .value p _ _ :: os => p :: values os
  | _ :: os => values os

/-- The messages sent, in order. -/
def messages : List Out → List Msg
  | [] => []
  | .message m _ :: os => m :: messages os
  | _ :: os => messages os

/-- Time goes forward: a grant is later than the time before it. -/
def Forward (env : Time → Time → Time → Prop) : Prop := ∀ c t g, env c t g → c < g

/-- A federate that asks for a later time is granted that time or an earlier one. -/
def NoOvershoot (env : Time → Time → Time → Prop) : Prop := ∀ c t g, env c t g → c < t → g ≤ t

/-- A federate that asks for a later time is granted that time. -/
def Exact (env : Time → Time → Time → Prop) : Prop := ∀ c t g, env c t g → c < t → g = t

/-- The points use iterations only when there are no messages, and never negative ones. -/
def PlainInput (ps : List Point) (ms : List Msg) : Prop :=
  (∀ p ∈ ps, 0 ≤ p.iteration) ∧ (ms = [] ∨ ∀ p ∈ ps, p.iteration = 0)

end Verif.Player
