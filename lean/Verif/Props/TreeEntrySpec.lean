import Verif.Model.Tree
import Verif.Props.Causality
import Verif.Lemmas.ForwardAct
import Verif.Props.TreeSpec
/-!
# C50: what the theorem about entering executing mode in a tree of cores and brokers says and assumes

`A` is a federate that has not asked to enter executing mode.  Above `A` are its core and the brokers up to the root
(`up`); the other cores and brokers are below the root on other branches (`down`).  None of the nodes `up` may tell
anybody that it is ready, and none of the nodes `down` may tell its children.
-/
namespace Verif
open Causal Causality Deps

/-- The command tells its receiver that the sender has asked to enter executing mode, or something later. -/
def asked (m : Msg) : Bool :=
  match m.action with
  | .execRequest | .timeRequest | .timeGrant => true
  | .execGrant => !m.iterationRequested
  | .disconnect | .priorityDisconnect | .broadcastDisconnect | .disconnectCore | .disconnectBroker | .disconnectFed
  | .localError | .globalError => true
  | _ => false

/-- The entry has not heard that its node asked to enter executing mode. -/
def Unheard (d : DepInfo) : Prop := d.state = .initialized ∧ d.connection ≠ .self

namespace Tree

/-- Who must keep silent: `up` are `A` and the cores and brokers above it, `down` other cores and brokers. -/
structure Branches where
  up : FedId → Prop
  down : FedId → Prop

/-- Node `n` may not tell node `d` that it is ready: `n` is `A` or above `A`, or `d` is a child of a node on another branch. -/
def Branches.silent (K : Branches) (s : Tree) (n d : FedId) : Prop :=
  K.up n ∨ (K.down n ∧ d ≠ invalidFed ∧ ∀ e ∈ (s.fwd n).deps, e.fedID = d → e.connection = .child)

/-- The coordinator depends on `g`, kept as its parent or not. -/
def DependsOn (w : Fwd) (g : FedId) (parent : Bool) : Prop :=
  Has g (fun d => d.connection ≠ .self ∧ (d.connection = .parent ↔ parent = true)) w.deps

/-- How the nodes are connected.  A core or broker above `A` depends on the node below it on the way to `A`, and on
its parent unless it is the root; a core or broker on another branch depends on its parent. -/
structure Branches.Placed (K : Branches) (A : FedId) (s : Tree) : Prop where
  sender : FedId.isFederate A = true
  first : K.up A
  above : ∀ n, K.up n → n ≠ A → FedId.isFederate n = false ∧ (∃ g, K.up g ∧ g ≠ invalidFed ∧ DependsOn (s.fwd n) g false) ∧
    (((s.fwd n).noParent = true ∧ ∀ d ∈ (s.fwd n).deps, d.connection ≠ .parent) ∨
     ((s.fwd n).noParent = false ∧ ∃ p, K.up p ∧ p ≠ invalidFed ∧ DependsOn (s.fwd n) p true))
  below : ∀ n, K.down n → FedId.isFederate n = false ∧ (s.fwd n).noParent = false ∧
    ∃ p, K.silent s p n ∧ p ≠ invalidFed ∧ DependsOn (s.fwd n) p true

/-- Node `n` is one of the cores and brokers considered. -/
def Branches.inner (K : Branches) (A n : FedId) : Prop := (K.up n ∧ n ≠ A) ∨ K.down n

/-- What the theorem assumes of a move.  Times stay within the range of the time type.  What cores and brokers do by
themselves does not change the dependencies of the nodes considered and does not announce for a silent node that it is ready; these
nodes do not leave; times announced to them are not negative. -/
def Branches.Fair (K : Branches) (A : FedId) (s0 s : Tree) : Tmove → Prop
  | .user i o => byUser o = true ∧ o.sane i
  | .env n cmd =>
    (FedId.isFederate n = true → cmd.sane n) ∧
    (K.inner A n → Fwd.rewiring cmd = false ∧ Deps.nonneg cmd) ∧
    (K.silent s0 cmd.source n → asked cmd = false)
  | .send _ _ _ _ => True
  | .deliver u v _ => (∀ x ∈ (s.chan u v).head?, x.time ≤ maxVal) ∧
      (K.inner A v → ∀ m, Parcel.cmd m ∈ (s.chan u v).head? → m.dest = v → Fwd.rewiring m = false ∧ Deps.nonneg m)
  | .flush _ => True
  | .start n => K.inner A n → (s.fwd n).core = true → (s.fwd n).deps.hasActive = true
  | .leave n => ¬ K.inner A n

/-- A history of fair moves during which no node above `A` hears of a dependency that waits for the current time; see
`C50_delayed_fails`. -/
def Branches.Legal (K : Branches) (A : FedId) (hop : FedId → FedId → FedId) (limit : Int) (s0 : Tree) : Tree → List Tmove → Prop
  | _, [] => True
  | s, m :: ms => K.Fair A s0 s m ∧ (∀ n, K.up n → n ≠ A → ((s.step hop limit m).1.fwd n).hasDelayed = false) ∧
      K.Legal A hop limit s0 (s.step hop limit m).1 ms

/-- Federate `A` has told somebody that it wants to enter executing mode, or something later. -/
def HasAsked (A : FedId) (s : Tree) : Prop := ∃ p ∈ (s.fed A).tc.out, ∃ m ∈ p.msgs, m.dest ≠ parentBroker ∧ asked m = true

/-- The event of federate `i` is its user's request to enter executing mode, or it ends the part of `i` in the federation, by a
disconnect, a stop or an error, or it is the special command that sets a federate's time. -/
def decides (i : FedId) : FedOp → Bool
  | .execRequest _ => true
  | .msg cmd => match cmd.action with
    | .execRequest => cmd.source == i && cmd.indicator
    | .stop | .disconnectFedAck | .error | .localError | .forceTimeGrant => true
    | .disconnect | .disconnectFed => cmd.source == i
    | _ => false
  | _ => false

/-- What happens to federate `i` by a move. -/
def eventAt (s : Tree) (i : FedId) : Tmove → Option FedOp
  | .user k o => if k = i then some o else none
  | .env n cmd => if n = i then some (.msg cmd) else none
  | .deliver u v noticed => if v = i then
      (match s.chan u v with
        | .cmd m :: _ => if m.dest = v then some (.msg m) else none
        | .data t a d y :: _ => if d = v ∧ noticed = true then
            some (if y then .message { action := .sendMessage, source := a, dest := v, actionTime := t }
              else .value { action := .pub, source := a, dest := v, actionTime := t }) else none
        | [] => none)
      else none
  | _ => none

/-- All events of federate `i` in a history. -/
def events (hop : FedId → FedId → FedId) (limit : Int) (i : FedId) (s : Tree) : List Tmove → List FedOp
  | [] => []
  | m :: ms => (s.eventAt i m).toList ++ events hop limit i (s.step hop limit m).1 ms

end Tree
end Verif
