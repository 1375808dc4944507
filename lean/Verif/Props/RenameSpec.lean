import Verif.Model.Rename
/-!
# C67: numbered names
-/
namespace Verif.Rename

/-- `t` is `pre`, the marker `${#}`, `suf`, and the marker is the first in `t`. -/
def Template (t pre suf : Text) : Prop :=
  t = pre ++ ['$', '{', '#', '}'] ++ suf ∧ ∀ a b, t = a ++ ['$', '{', '#', '}'] ++ b → pre.length ≤ a.length

/-- The marker is nowhere in `t`. -/
def NoMarker (t : Text) : Prop := ∀ a b, t ≠ a ++ ['$', '{', '#', '}'] ++ b

/-- `w` is somewhere in `t`. -/
def Contains (t w : Text) : Prop := ∃ a b, t = a ++ w ++ b

/-- `t` ends in a digit. -/
def EndsInDigit (t : Text) : Prop := ∃ a c, t = a ++ [c] ∧ c.isDigit = true

/-- A text with the marker at its end and no digit in front of it, such as `player_${#}`. -/
def Clean (t pre : Text) : Prop := Template t pre [] ∧ ¬ EndsInDigit pre

/-- The `n`-th name made from a template. -/
def numbered (pre suf : Text) (n : Nat) : Text := pre ++ Nat.toDigits 10 n ++ suf

/-- The name asked for by `t` after the requests `before`. -/
inductive Asks (before : List Text) (t : Text) : Text → Prop
  | plain : NoMarker t → Asks before t t
  | template (pre suf : Text) : Template t pre suf → Asks before t (numbered pre suf (before.count t + 1))

end Verif.Rename

namespace Verif.Rename

/-- Registering under `t` fails because of the name made for it: the name is not `t` itself and has the word `error` in it. -/
def Rejected (t name : Text) : Prop := name ≠ t ∧ Contains name ['e', 'r', 'r', 'o', 'r']

end Verif.Rename
