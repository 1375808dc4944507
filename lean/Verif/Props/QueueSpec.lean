import Verif.Model.CmdQueue
/-
What is claimed of the command queue, in terms of its history (`hist`, newest event first) only.
-/
namespace Verif.CmdQueue

/-- The command has left the queue: a pop took it, or `clear` removed it. -/
def gone (h : List (Ev α)) (x : Item α) : Prop := .took x ∈ h ∨ .dropped x ∈ h

/-- In this history the push of `x` had returned before the push of `y` was called. -/
def precedes (h : List (Ev α)) (x y : Item α) : Prop :=
  ∃ a b, h = a ++ .called y :: b ∧ .returned x ∈ b

/-- Whenever something is taken, everything of the same class whose push had returned before its push
was called has left already. -/
def Fifo (h : List (Ev α)) : Prop :=
  ∀ a y b, h = a ++ .took y :: b → ∀ x, x.prio = y.prio → precedes b x y → gone b x

/-- Whenever a regular command is taken, every priority command whose push had returned has left. -/
def PrioFirst (h : List (Ev α)) : Prop :=
  ∀ a y b, h = a ++ .took y :: b → y.prio = false → ∀ x, x.prio = true → .returned x ∈ b → gone b x

/-- Nothing leaves twice, and nothing leaves that was not put in, unchanged, before. -/
def ExactlyOnce (h : List (Ev α)) : Prop :=
  (∀ a x b, (h = a ++ .took x :: b ∨ h = a ++ .dropped x :: b) → .called x ∈ b ∧ ¬ gone b x)

/-- An attempt to take that comes back empty-handed: everything whose push had returned before the
attempt began has left. -/
def NoneMeansEmpty (h : List (Ev α)) : Prop :=
  ∀ a t c d, h = a ++ .popNone t :: (c ++ .popStart t :: d) → .popStart t ∉ c →
    ∀ x, .returned x ∈ d → gone (c ++ .popStart t :: d) x

/-- When the queue says it is empty, everything whose push had returned has left. -/
def SaidEmptyIsEmpty (h : List (Ev α)) : Prop :=
  ∀ a b, h = a ++ .saidEmpty true :: b → ∀ x, .returned x ∈ b → gone b x

/-- What a peek shows has been put in and has not left. -/
def PeekIsThere (h : List (Ev α)) : Prop :=
  ∀ a x b, h = a ++ .peeked (some x) :: b → .called x ∈ b ∧ ¬ gone b x

/-- The operations that take something. -/
def isPop : Op α → Bool
  | .tryPop | .pop | .popTimed => true
  | _ => false

/-- A schedule in which only thread `c` takes commands out. -/
def OneTaker (c : Nat) (tr : List (Nat × Choice α)) : Prop :=
  ∀ t o, (t, .call o) ∈ tr → isPop o = true → t = c

/-- The thread is asleep inside the wait and nobody has notified it. -/
def asleep (s : St α) (c : Nat) : Prop := ∃ m, s.pcs c = .waiting m false

end Verif.CmdQueue
