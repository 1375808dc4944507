import Verif.Model.Query
/-!
# What it means that a query about the whole federation is answered

The words used in the statements of C57.
-/
namespace Verif.Query

/-- The shape of a federation: brokers above brokers and cores, cores above federates. -/
structure Net.Ok (net : Net) : Prop where
  root : net.par 0 = 0
  below : ∀ n, n ≠ 0 → net.par n < n
  rootKind : net.kind 0 = .broker
  fed : ∀ n, n ≠ 0 → n < net.size → (net.kind n = .fed ↔ net.kind (net.par n) = .core)
  leaf : ∀ n, n ≠ 0 → n < net.size → net.kind (net.par n) ≠ .fed

/-- `a` is a complete answer of `v` to the query `i`: a document of `v` about this query, which contains,
in the array for its kind, a complete answer of every member directly below `v`, each exactly once, and
nothing else. -/
inductive Lists (net : Net) (i : Nat) : Node → Ans → Prop
  | doc (v t : Nat) (es : List (Node × Ans)) :
      (es.map (·.1)).Perm (net.kids v) → (∀ e ∈ es, Lists net i e.1 e.2) →
      Lists net i v (.doc v i t (es.map (fun e => (net.kind e.1, e.2))))

/-- Executions in which nobody leaves or fails, the query `i` is put to brokers, and, if its answers are
not kept for reuse, no federate's lock changes hands. -/
structure Steady (net : Net) (i : Nat) (es : List Ev) : Prop where
  stay : ∀ v u, Ev.drop v u ∉ es ∧ Ev.err v u ∉ es
  broker : ∀ v, Ev.ask v i ∈ es → v < net.size ∧ net.kind v = .broker
  named : ∀ v, Ev.named v i ∉ es
  still : net.reuse i = true ∨ ∀ f b, Ev.lock f b ∉ es

/-- The beginning: nothing was asked; some federates are busy. -/
def start (busy : Node → Bool) : Sys := { busy := busy }

/-- The query number `q` was the query `i` put to `v`. -/
def Asked (s : Sys) (q v i : Nat) : Prop := s.asked[q]? = some (v, i)

/-- The query number `q` was answered with `a`. -/
def Answered (s : Sys) (q : Nat) (a : Ans) : Prop := (q, a) ∈ s.answers

/-- How often query number `q` was answered. -/
def times (s : Sys) (q : Nat) : Nat := s.answers.countP (fun p => p.1 == q)

def Msg.type : Msg → Nat
  | .req _ i _ => i
  | .rep _ i _ _ => i

/-- No request or reply for the query `i` is on its way. -/
def Quiet (s : Sys) (i : Nat) : Prop := ∀ m ∈ s.flight, m.type ≠ i

/-- The queries are put to members of the federation, and are known ones. -/
def InRange (net : Net) (es : List Ev) : Prop :=
  (∀ v i, (Ev.ask v i ∈ es ∨ Ev.named v i ∈ es) → v < net.size ∧ i < net.types) ∧ ∀ v u, Ev.drop v u ∈ es → v < net.size

/-- The messages at the positions `ks` are taken one after the other, and each time there is one. -/
def Busy (net : Net) : Sys → List Nat → Prop
  | _, [] => True
  | s, k :: ks => k < s.flight.length ∧ Busy net (s.step net (.take k)) ks

/-- The state after taking them. -/
def Sys.takes (net : Net) (s : Sys) (ks : List Nat) : Sys := s.run net (ks.map Ev.take)

/-- Broker `v` has sent the query `i` to `u` and waits for its answer. -/
def Awaits (s : Sys) (v i u : Nat) : Prop := ∃ p ∈ ((s.node v).slot i).b.missing, p.2.2 = u

/-- Broker `v` keeps a finished answer to the query `i`. -/
def Keeps (s : Sys) (v i : Nat) : Prop := ((s.node v).slot i).b.completed = true

/-- A complete answer of `v`, except that `u` is missing. -/
def ListsBut (net : Net) (i : Nat) (v u : Node) (a : Ans) : Prop :=
  ∃ t, ∃ es : List (Node × Ans), a = .doc v i t (es.map (fun e => (net.kind e.1, e.2))) ∧
    (es.map (·.1)).Perm ((net.kids v).filter (· != u)) ∧ ∀ e ∈ es, Lists net i e.1 e.2

/-- Everything in the answer was written down at the moment `T` or later. -/
inductive Since (T : Nat) : Ans → Prop
  | doc (v i t : Nat) (l : List (Kind × Ans)) : T ≤ t → (∀ e ∈ l, Since T e.2) → Since T (.doc v i t l)

/-- Node `v` keeps a finished answer to the query `i`, and nothing has changed since. -/
def Usable (s : Sys) (v i : Nat) : Prop := Keeps s v i ∧ (s.node v).ctr = ((s.node v).slot i).b.code

end Verif.Query
