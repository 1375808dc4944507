import Verif.Model.Shutdown
/-!
# What it means that a federation ends properly

The words used in the statements of C56.
-/
namespace Verif.Down

/-- The shape of a federation: brokers above brokers and cores, cores above federates. -/
structure Net.Ok (net : Net) : Prop where
  root : net.par 0 = 0
  below : ∀ n, n ≠ 0 → net.par n < n
  size : 0 < net.size
  rootKind : net.kind 0 = .broker
  fed : ∀ n, n ≠ 0 → n < net.size → (net.kind n = .fed ↔ net.kind (net.par n) = .core)
  leaf : ∀ n, n ≠ 0 → n < net.size → net.kind (net.par n) ≠ .fed

/-- Every core has a federate and every broker something below it. -/
def Net.Full (net : Net) : Prop := ∀ n, n < net.size → net.kind n ≠ .fed → net.kids n ≠ []

/-- `f` is a federate of the federation. -/
def Net.IsFed (net : Net) (f : Node) : Prop := f < net.size ∧ net.kind f = .fed

/-- `n` is a core or broker of the federation. -/
def Net.IsNode (net : Net) (n : Node) : Prop := n < net.size ∧ net.kind n ≠ .fed

/-- `a` is `n` or above it -/
inductive Above (net : Net) (a : Node) : Node → Prop
  | refl : Above net a a
  | step {n : Node} : n ≠ 0 → Above net a (net.par n) → Above net a n

/-- The application of `f` has called finalize. -/
def Called (s : Sys) (f : Node) : Prop := (s.node f).called = true

/-- The call of finalize has returned. -/
def Returned (s : Sys) (f : Node) : Prop := (s.node f).phase = .stopped

/-- The main loop of the broker or core has ended. -/
def Ended (s : Sys) (n : Node) : Prop := (s.node n).phase = .stopped

/-- Nobody disconnects a broker or core by hand. -/
def NoKill (es : List Ev) : Prop := ∀ n, Ev.kill n ∉ es

/-- Nothing is on its way. -/
def Quiet (s : Sys) : Prop := ∀ u v, s.link u v = []

/-- The commands `ts` are taken one after the other, and each time there is one to take. -/
def Busy (net : Net) : Sys → List (Node × Node) → Prop
  | _, [] => True
  | s, t :: ts => s.link t.1 t.2 ≠ [] ∧ Busy net (s.step net (.take t.1 t.2)) ts

/-- The state after taking them. -/
def Sys.takes (net : Net) (s : Sys) (ts : List (Node × Node)) : Sys := s.run net (ts.map (fun t => .take t.1 t.2))

end Verif.Down
