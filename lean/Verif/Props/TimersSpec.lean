import Verif.Model.Timers
/-! What is said about message timers: the words used in the statements of C61. -/
namespace Verif
namespace Timers

/-- a set of timers, none so far, after the events of `es` in order -/
def run (es : List Ev) : S := es.foldl S.step {}

def isAdd : Ev → Bool
  | .add _ _ => true
  | _ => false

/-- the number of timers -/
def adds (es : List Ev) : Nat := (es.filter isAdd).length

/-- after `pre`, `e` gives the message `m` to timer `i`; timers are numbered in the order they are added -/
def Gives (pre : List Ev) (e : Ev) (i m : Nat) : Prop :=
  match e with
  | .add _ m' => i = adds pre ∧ m = m'
  | .update j _ m' => j = i ∧ i < adds pre ∧ m = m'
  | .setMsg j m' => j = i ∧ i < adds pre ∧ m = m'
  | _ => False

/-- after `pre`, `e` sets timer `i` to the time `t` -/
def Sets (pre : List Ev) (e : Ev) (i : Nat) (t : Int) : Prop :=
  match e with
  | .add t' _ => i = adds pre ∧ t = t'
  | .update j t' _ => j = i ∧ i < adds pre ∧ t = t'
  | .move j t' => j = i ∧ i < adds pre ∧ t = t'
  | _ => False

/-- `e` cancels timer `i` -/
def Cancels (e : Ev) (i : Nat) : Prop := e = .cancel i ∨ e = .cancelAll

/-- `e` gives another message to timer `i`, which exists -/
def Replaces (e : Ev) (i : Nat) : Prop := (∃ t m, e = .update i t m) ∨ ∃ m, e = .setMsg i m

/-- `e` sets timer `i`, which exists, to another time -/
def Resets (e : Ev) (i : Nat) : Prop := (∃ t m, e = .update i t m) ∨ ∃ t, e = .move i t

/-- by how much timer `i` is delayed in `es` -/
def delays (i : Nat) : List Ev → Int
  | [] => 0
  | .delay j d :: es => (if j = i then d else 0) + delays i es
  | _ :: es => delays i es

/-- how often timer `i` is given a message in `es`, at most -/
def given (i : Nat) (es : List Ev) : Nat :=
  (if i < adds es then 1 else 0) +
    (es.filter fun e => match e with
      | .update j _ _ => j == i
      | .setMsg j _ => j == i
      | _ => false).length

/-- time passes, or a handler is queued or runs: nothing is called -/
def Quiet : Ev → Prop
  | .tick _ => True
  | .fire _ => True
  | .run _ => True
  | _ => False

/-- what timer `i` has handed over -/
def sentBy (i : Nat) (s : S) : List Sent := s.sent.filter fun x => x.idx == i

/-- the handlers still to come: one that waits counts twice, it is queued and then run -/
def pending (s : S) : Nat := (s.waits.map fun w => if w.queued then 1 else 2).sum

end Timers
end Verif
