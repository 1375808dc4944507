import Verif.Model.Global
/-! What is said about a broker that keeps a master clock: the words used in the statements of C58. -/
namespace Verif
namespace Glob

/-- the coordinator after handling the commands of `es` in order -/
def run (g : Glob) (es : List Msg) : Glob := es.foldl handle g

/-- everything sent while handling `m` -/
def sent (g : Glob) (m : Msg) : List Packet := (handle g m).base.out.drop g.base.out.length

/-- federate `s` is asked for its current time, with the number `n` -/
def Asked (n : Int) (s : FedId) (ps : List Packet) : Prop :=
  ∃ q, Packet.single q ∈ ps ∧ q.action = .requestCurrentTime ∧ q.dest = s ∧ q.counter = n

/-- federate `s` is told that it may advance to `T` -/
def Announced (T : Time) (s : FedId) (ps : List Packet) : Prop :=
  ∃ q, Packet.single q ∈ ps ∧ q.action = .timeRequest ∧ q.dest = s ∧ q.actionTime = T

/-- neither questions nor announcements -/
def Nothing (ps : List Packet) : Prop := (∀ n s, ¬ Asked n s ps) ∧ ∀ T s, ¬ Announced T s ps

/-- the broker has let the federation start -/
def Started (g : Glob) : Prop :=
  g.base.entered = true ∧ g.base.executionMode = true ∧ g.state = .granted

/-- no change of who is connected to whom -/
def Timing (m : Msg) : Prop :=
  m.action ≠ .addDependency ∧ m.action ≠ .removeDependency ∧ m.action ≠ .addDependent ∧ m.action ≠ .removeDependent ∧
    m.action ≠ .addInterdependency ∧ m.action ≠ .removeInterdependency

/-- a federate whose answer counts: connected in both directions, speaking a version of the protocol with numbers, and
not gone -/
def TakesPart (d : DepInfo) : Prop :=
  d.dependency = true ∧ d.dependent = true ∧ d.timingVersion > 0 ∧ d.connection ≠ .self ∧ d.next < cTerm

/-- a request that carries the number `n` back -/
def Answers (n : Int) (m : Msg) : Prop :=
  (m.action = .timeRequest ∨ m.action = .execRequest) ∧ m.extraDestData = n

/-- `m` is the first request of a federate since it was last granted a time (and not the message that first tells
that the federate waits for the current time) -/
def NewAsk (g : Glob) (m : Msg) : Prop :=
  m.action = .timeRequest ∧ ∃ d, g.base.deps.find m.source = some d ∧ d.dependency = true ∧ d.state = .granted ∧
    ¬ (m.delayedTiming = true ∧ d.delayedTiming = false)

/-- handling `m` opens a round with the number `n`: exactly those whose next time is at most some `T` are asked -/
def Opens (g : Glob) (m : Msg) (n : Int) : Prop :=
  (handle g m).base.seq = n ∧ ∃ T, ∀ k s, Asked k s (sent g m) ↔
    k = n ∧ ∃ d ∈ (handle g m).base.deps, d.fedID = s ∧ d.next ≤ T ∧ d.next < cTerm

/-- whenever a round is opened, nobody's last answer carries its number already -/
def NoReuse (g : Glob) (es : List Msg) : Prop :=
  ∀ pre p post, es = pre ++ p :: post → (run g (pre ++ [p])).base.seq ≠ (run g pre).base.seq →
    ∀ d ∈ (run g (pre ++ [p])).base.deps, d.connection = .self ∨
      d.responseSequenceCounter ≠ (run g (pre ++ [p])).base.seq

/-- federates carry back only numbers they have been sent -/
def Honest (g : Glob) (es : List Msg) : Prop :=
  ∀ pre x post, es = pre ++ x :: post → (x.action = .timeRequest ∨ x.action = .execRequest) →
    x.extraDestData ≤ 0 ∨ ∃ q, Packet.single q ∈ (run g pre).base.out ∧ q.dest = x.source ∧ q.counter = x.extraDestData

/-- how many commands of the history made the broker open a round or announce a time -/
def rounds (g : Glob) : List Msg → Nat
  | [] => 0
  | m :: ms => (if (handle g m).base.seq = g.base.seq then 0 else 1) + rounds (handle g m) ms

/-- the states of a federate that waits for a time -/
def Asking (s : TimeState) : Prop := s = .timeReq ∨ s = .timeReqIter ∨ s = .timeReqRequireIter

/-- commands after which the broker decides again -/
def Prompting (m : Msg) : Prop :=
  m.action = .timeRequest ∨ m.action = .timeGrant ∨ m.action = .requestCurrentTime ∨ m.action = .disconnect ∨
    m.action = .priorityDisconnect

/-- nobody announces a time before one it has announced already -/
def NoStepBack (g : Glob) (es : List Msg) : Prop :=
  ∀ pre x post, es = pre ++ x :: post → ∀ d ∈ (run g pre).base.deps, d.fedID = x.source →
    (x.action = .timeRequest ∨ x.action = .timeGrant → d.next ≤ x.actionTime) ∧ (x.action = .execGrant → d.next ≤ 0)

/-- every federate the broker depends on waits for a time, its next time is not after its next event, and somebody is
still running -/
def AllAsking (g : Glob) : Prop :=
  (∀ d ∈ g.base.deps, d.dependency = true → Asking d.state ∧ d.fedID ≠ invalidFed ∧ d.next ≤ maxVal) ∧
  (∀ d ∈ g.base.deps, d.next ≤ d.Te) ∧
  ∃ d ∈ g.base.deps, d.dependency = true ∧ d.connection ≠ .parent ∧
    ¬ (FedId.isValid g.base.self = true ∧ d.minFedActual = g.base.self) ∧ d.next < cTerm

end Glob
end Verif
