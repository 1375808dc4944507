import Verif.Model.Net
import Verif.Model.Forward
/-!
# C51: what "the neighbours of a core or broker are kept up to date" means

A core or broker collects what its dependencies announce and passes the combined view on: to its parent (and other
dependents that are not its children) the combination of everything except the parent, to its children the combination of
what comes from the parent, or of everything at the top.
-/
namespace Verif
namespace Fwd

/-- What can happen at a core or broker after the federation has been initialized. -/
inductive Event
  | cmd (m : Msg)
  | leave
  deriving DecidableEq, Repr

/-- The coordinator after an event. -/
def occur (w : Fwd) : Event → Fwd
  | .cmd m => w.handle m
  | .leave => w.disconnect

/-- The command changes who depends on whom. -/
def wires (m : Msg) : Bool :=
  match m.action with
  | .addDependency | .removeDependency | .addDependent | .removeDependent | .addInterdependency | .removeInterdependency => true
  | _ => false

/-- A new coordinator after its dependencies were set up. -/
def wired (self : FedId) (core restrictive : Bool) (wiring : List Msg) : Fwd :=
  wiring.foldl handle { self := self, core := core, restrictive := restrictive }

/-- A new coordinator, after its dependencies were set up, the federation was initialized and `evs` happened. -/
def life (self : FedId) (core restrictive : Bool) (wiring : List Msg) (evs : List Event) : Fwd :=
  evs.foldl occur (wired self core restrictive wiring).start

/-- `wiring` sets up the dependencies, and they are not changed afterwards. -/
def Settled (wiring : List Msg) (evs : List Event) : Prop :=
  (∀ m ∈ wiring, wires m = true) ∧ ∀ m, .cmd m ∈ evs → wires m = false

/-- Everything the coordinator has sent. -/
def sent (w : Fwd) : List Msg := w.out.flatMap Packet.parts

/-- The command announces the timing state of its sender. -/
def announces (m : Msg) : Bool :=
  match m.action with
  | .execRequest | .execGrant | .timeRequest | .timeGrant => true
  | _ => false

/-- The last announcement in a list of messages addressed to `x`. -/
def lastOf (l : List Msg) (x : FedId) : Option Msg := (l.filter fun m => announces m && m.dest == x).getLast?

/-- The last announcement made to `x`. -/
def lastTold (w : Fwd) (x : FedId) : Option Msg := lastOf w.sent x

/-- The announcement states the condition and the next time of the view `t`. -/
def SaysTime (m : Msg) (t : TimeData) : Prop :=
  match t.state with
  | .execReqRequireIter => m.action = .execRequest ∧ m.iterationRequested = true ∧ m.required = true
  | .execReqIter => m.action = .execRequest ∧ m.iterationRequested = true ∧ m.required = false
  | .execReq => m.action = .execRequest ∧ m.iterationRequested = false
  | .granted => (m.action = .timeGrant ∧ m.actionTime = t.next) ∨
      (m.action = .execGrant ∧ m.iterationRequested = false ∧ t.next = 0)
  | .timeReqRequireIter => m.action = .timeRequest ∧ m.iterationRequested = true ∧ m.required = true ∧ m.actionTime = t.next
  | .timeReqIter => m.action = .timeRequest ∧ m.iterationRequested = true ∧ m.required = false ∧ m.actionTime = t.next
  | .timeReq => m.action = .timeRequest ∧ m.iterationRequested = false ∧ m.actionTime = t.next
  | .initialized | .error => False

/-- The announcement also states the earliest events of the view `t` and who causes them. -/
def Says (m : Msg) (t : TimeData) : Prop :=
  SaysTime m t ∧ (m.action = .timeRequest →
    m.Te = t.Te ∧ m.Tdemin = min t.minDe t.Te ∧ m.extraData = t.minFed ∧ m.interrupted = t.interrupted)

/-- The view is one from executing mode about which there is something to say. -/
def InTime (t : TimeData) : Prop :=
  t.state = .granted ∨ t.state = .timeReq ∨ t.state = .timeReqIter ∨ t.state = .timeReqRequireIter

/-- The commands that make a core or a broker look at its combined view again. -/
def attended (core : Bool) (cmd : Msg) : Bool :=
  match cmd.action with
  | .timeRequest | .timeGrant | .disconnect | .priorityDisconnect => true
  | .broadcastDisconnect | .disconnectCore | .disconnectBroker | .disconnectFed | .localError | .globalError | .timingInfo => core
  | .requestCurrentTime => !core
  | _ => false

/-- The command is about entering executing mode. -/
def aboutEntry (cmd : Msg) : Bool :=
  match cmd.action with
  | .execRequest | .execGrant => true
  | _ => false

/-- The coordinator depends on the sender of the command. -/
def FromDependency (w : Fwd) (cmd : Msg) : Prop := ∃ d ∈ w.deps, d.fedID = cmd.source ∧ d.dependency = true

/-- The combined view passed to the parent. -/
def viewUp (w : Fwd) (code : Int) : TimeData := w.deps.minTimeUpstream w.restrictive w.self invalidFed code

/-- The combined view passed to the children of a coordinator that was set up with a parent, or without. -/
def viewDown (w : Fwd) (hasParent : Bool) (code : Int) : TimeData :=
  if hasParent then w.deps.minTimeDownstream w.restrictive w.self invalidFed code else w.viewUp code

/-- One of the dependencies that were set up is the parent. -/
def hasParent (w : Fwd) : Bool := w.deps.any fun d => d.connection == .parent

/-- `x` is itself a dependency waiting for a time later than `t`. -/
def Later (w : Fwd) (x : FedId) (t : Time) : Prop :=
  ∃ d ∈ w.deps, d.fedID = x ∧ d.dependency = true ∧ t < d.next ∧ d.next < cTerm

/-- Every dependency has asked to enter executing mode or is further. -/
def Ready (w : Fwd) : Prop := ∀ d ∈ w.deps, d.dependency = true → d.state ≠ .initialized ∧
  d.state ≠ .execReqIter ∧ d.state ≠ .execReqRequireIter ∨ d.connection = .self

end Fwd
end Verif
