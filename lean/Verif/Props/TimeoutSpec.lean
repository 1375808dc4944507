import Verif.Model.Timeout
/-! What is said about lost connections: the words used in the statements of C59. -/
namespace Verif
namespace Ping
open Node

/-- the broker or core after handling the commands of `es` in order -/
def run (b : Node) (es : List Ev) : Node := es.foldl handle b

/-- everything sent while handling `e` -/
def sent (b : Node) (e : Ev) : List Out := (handle b e).out.drop b.out.length

/-- nothing asked yet -/
def Fresh (b : Node) : Prop :=
  b.conns = [] ∧ b.members = [] ∧ b.parent.waiting = false ∧ b.since = 0

/-- a root broker: it never registers with anybody, and no member has the identifier it keeps for the broker above (0) -/
def RootRun (b : Node) (es : List Ev) : Prop :=
  b.isCore = false ∧ b.root = true ∧ ∀ e ∈ es, (∀ p s, e ≠ .acknowledged p s) ∧ ∀ m, e = .join m → m.id ≠ b.parent.id

/-- the clock does not run backwards between the two readings within one tick -/
def Clock (es : List Ev) : Prop := ∀ e ∈ es, ∀ a c, e = .tick a c → a ≤ c

/-- a member that has neither failed nor asked to leave -/
def Alive (s : St) : Prop := s = .connected ∨ s = .initRequested ∨ s = .operating

/-- `x` is asked for the first time in a round while handling `e` -/
def Pinged (x : Id) (b : Node) (e : Ev) : Prop := ∃ c, Out.ping x c ∈ sent b e

/-- nothing but ticks since the last tick (or since the start) -/
def Heard (es : List Ev) : Prop := es = [] ∨ ∃ pre a c, es = pre ++ [.tick a c]

end Ping
end Verif
