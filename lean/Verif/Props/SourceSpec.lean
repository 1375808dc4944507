import Verif.Model.Source
import Mathlib.Data.List.Forall2
/-!
# C70: the source application
-/
namespace Verif.Source

/-- Sources as configured: a positive period, nothing published yet. -/
def Configured (l : List Src) : Prop := ∀ s ∈ l, 0 < s.period ∧ s.out = []

/-- The k-th time at which a source is due: its start time, or zero if that is negative, and then once per period. -/
def due (s : Src) (k : Nat) : Int := (if s.next < 0 then 0 else s.next) + k * s.period

/-- What a source with a negative start time publishes before time zero. -/
def before (s : Src) : List Int := if s.next < 0 then [-1] else []

/-- The source `s` was configured as `s0` and has published at exactly the times it was due, up to `t`. -/
def OnTime (t : Int) (s0 s : Src) : Prop :=
  ∃ n : Nat, s.out = before s0 ++ (List.range n).map (due s0) ∧ ∀ k, due s0 k ≤ t ↔ k < n

/-- The source `s`, configured as `s0`, has published at increasing times, no value before it was due, and waits for a time at which it is due
and which is not past. -/
def InOrder (t : Int) (s0 s : Src) : Prop :=
  ∃ l : List Int, s.out = before s0 ++ l ∧ l.Pairwise (· < ·) ∧ (∀ x ∈ l, 0 ≤ x ∧ x ≤ t) ∧ (∀ k x, l[k]? = some x → due s0 k ≤ x) ∧
    (∃ k, s.next = due s0 k) ∧ t ≤ s.next

end Verif.Source
