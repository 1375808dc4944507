import Verif.Model.Tree
import Verif.Props.Causality
import Verif.Lemmas.ForwardAct
/-!
# C49: what the theorems about the tree of cores and brokers say and assume

A route from federate `A` to federate `B` is a sequence of nodes.  Some of the cores and brokers on it are
*stations*: their time coordinator depends on the station before and is a dependency of the station after.  The
others only pass things on.  A route may visit a node twice: two federates of one core are coordinated by way of
the broker above it, and the commands go up and come down again, while data turns around in the core.
-/
namespace Verif
open Causal Causality Deps

/-- A route: `node 0` is the sender, `node len` the receiver; `station` says where timing commands are taken in and
answered by commands of the node's own; what passes link `q` (from `node q` to `node (q+1)`) is addressed to `dst q`. -/
structure Route where
  len : Nat
  node : Nat → FedId
  station : Nat → Bool
  role : Nat → Role
  dst : Nat → FedId

namespace Route

/-- the last station before link `q` (or the sender) -/
def seg (W : Route) : Nat → Nat
  | 0 => 0
  | q + 1 => if W.station (q + 1) then q + 1 else seg W q

/-- whose commands pass link `q` -/
def src (W : Route) (q : Nat) : FedId := W.node (W.seg q)

/-- The route agrees with the way commands and data are passed on (`hop`). -/
structure Ok (W : Route) (hop : FedId → FedId → FedId) (A B : FedId) : Prop where
  first : W.node 0 = A
  last : W.node W.len = B
  long : 0 < W.len
  ends : W.station W.len = true
  sender : FedId.isFederate A = true
  receiver : FedId.isFederate B = true
  differ : A ≠ B
  inner : ∀ q, 0 < q → q < W.len → FedId.isFederate (W.node q) = false
  target : ∀ q, q < W.len → W.dst q = if W.station (q + 1) then W.node (q + 1) else W.dst (q + 1)
  relay : ∀ q, 0 < q → q < W.len → W.station q = false → W.node q ≠ W.dst q
  route : ∀ q, q < W.len → hop (W.node q) (W.dst q) = W.node (q + 1)
  /-- links are used once -/
  once : ∀ i j, i < W.len → j < W.len → W.node i = W.node j → W.node (i + 1) = W.node (j + 1) → i = j
  /-- data enters the route at its beginning, and from any node goes on along the route, perhaps with a short cut -/
  enter : hop A B = W.node 1
  data : ∀ q, 0 < q → q < W.len → ∃ j, q ≤ j ∧ j < W.len ∧ W.node j = W.node q ∧ hop (W.node q) B = W.node (j + 1)

/-- The stations know their neighbours on the route: station `q` depends on the station before it and keeps it and the
station after it with the right connections (parent, child). -/
def Knows (W : Route) (s : Tree) : Prop :=
  ∀ q, 0 < q → q < W.len → W.station q = true → Fwd.Wired (W.role q) (W.src (q - 1)) (W.dst q) (s.fwd (W.node q))

end Route

/-- The time a parcel carries. -/
def Parcel.time : Parcel → Time
  | .cmd m => m.actionTime
  | .data t _ _ _ => t

namespace Tree

/-- `A` has left and none of its data for `B` is on the way. -/
def Over (A B : FedId) (s : Tree) : Prop := ¬ (s.fed A).live ∧ ∀ u v t b, .data t A B b ∉ s.chan u v

/-- Node `n` is a station of the route. -/
def AtStation (W : Route) (n : FedId) : Prop := ∃ q, 0 < q ∧ q < W.len ∧ W.station q = true ∧ W.node q = n

/-- What the theorems assume of a move.  Times stay within the range of the time type.  Nobody uses the forced grant,
joins the running federation or changes the timing settings of an executing federate, and with `F` federate `A`
asks for times without iteration.  What cores and brokers do by themselves does not change the dependencies of a
station, and speaks for the sender or a station only when the sender is gone and all its data delivered.  A station
leaves only after the node it hears from on the route has announced its end. -/
def Fair (F : Prop) (W : Route) (A B : FedId) (s : Tree) : Tmove → Prop
  | .user i o => byUser o = true ∧ o.sane i ∧ Fed.calm (i = A ∧ F) (s.fed i) o
  | .env n cmd =>
    (FedId.isFederate n = true → cmd.sane n ∧ Fed.calm False (s.fed n) (.msg cmd)) ∧
    (AtStation W n → Fwd.rewiring cmd = false) ∧
    (word cmd = .silent ∨ (∀ q, q < W.len → cmd.source ≠ W.src q) ∨ Over A B s)
  | .send _ _ _ _ => True
  | .deliver u v _ => (∀ x ∈ (s.chan u v).head?, x.time ≤ maxVal) ∧
      (AtStation W v → ∀ m, Parcel.cmd m ∈ (s.chan u v).head? → m.dest = v → Fwd.rewiring m = false)
  | .flush _ => True
  | .start n => AtStation W n → (s.fwd n).core = true → (s.fwd n).deps.hasActive = true
  | .leave n => ∀ q, 0 < q → q < W.len → W.station q = true → W.node q = n →
      Has (W.src (q - 1)) (fun d => executing d = true ∧ maxVal ≤ d.next) (s.fwd n).deps

/-- No station that returns commands to where they came from (two children of the root's child) has a dependency that asked
to wait for the current time; see `C49_delayed_fails`. -/
def Undelayed (W : Route) (s : Tree) : Prop :=
  ∀ q, 0 < q → q < W.len → W.station q = true → W.role q = .root → W.src (q - 1) = W.dst q → (s.fwd (W.node q)).hasDelayed = false

/-- A history with fair moves during which the announcements of `A` are binding. -/
def Legal (F : Prop) (W : Route) (A B : FedId) (hop : FedId → FedId → FedId) (limit : Int) : Tree → List Tmove → Prop
  | _, [] => True
  | s, m :: ms => Fair F W A B s m ∧ Binding F (s.fed A) ∧ Undelayed W (s.step hop limit m).1 ∧
      Legal F W A B hop limit (s.step hop limit m).1 ms

/-- The command that reaches a federate by the move. -/
def arriving (s : Tree) : Tmove → Option (FedId × Msg)
  | .env n cmd => some (n, cmd)
  | .deliver u v _ => match s.chan u v with
    | .cmd m :: _ => some (v, m)
    | _ => none
  | _ => none

/-- The move tells a core or broker about its dependencies. -/
def wiring : Tmove → Bool
  | .env n cmd => !FedId.isFederate n && Fwd.rewiring cmd
  | _ => false

end Tree
end Verif
