import Verif.Model.Routing
/-!
# What it means that commands find their way

The words used in the statements of C55.
-/
namespace Verif.Routes

/-- A hierarchy: a tree whose nodes are numbered from the root down, with the cores as leaves. -/
structure Net.Ok (net : Net) : Prop where
  root : net.par 0 = 0
  below : ∀ n, n ≠ 0 → net.par n < n
  rootBroker : net.core 0 = false
  leaf : ∀ n, n ≠ 0 → net.core (net.par n) = false

/-- The holder of an identifier: the node `n` itself (`f = none`), or the federate `f` of the core
`n`. -/
def Holds (s : Sys) (n : Node) (f : Option String) (d : Id) : Prop :=
  match f with
  | none => (s.node n).id = some d
  | some nm => ∃ l ∈ (s.node n).feds, l.name = nm ∧ l.id = some d

/-- The root has given the identifier to somebody (the registration may still be on its way back). -/
def Given (s : Sys) (d : Id) : Prop := d = rootId ∨ ∃ e ∈ (s.node 0).ents, e.id = some d

/-- Whatever is sent is addressed to an identifier which the root has given to somebody. -/
def Addressed (net : Net) : Sys → List Ev → Prop
  | _, [] => True
  | s, e :: es => (∀ n d p b, e = .send n d p b → Given s d) ∧ Addressed net (s.step net e) es

/-- Whatever is sent is addressed to an identifier which the sender has heard of, from somebody who
had heard of it, and so on up to the root, which makes the identifiers. -/
def Causal (net : Net) : Sys → List Ev → Prop
  | _, [] => True
  | s, e :: es => (∀ n d p b, e = .send n d p b → d ∈ s.know n) ∧ Causal net (s.step net e) es

/-- No federate asks to be reentrant (to come back later under its name). -/
def NoReentry (es : List Ev) : Prop := ∀ n nm re g, Ev.join n nm re g ∈ es → re = false

/-- Fewer than 100 000 000 federates are registered. -/
def Small (s : Sys) : Prop := (s.node 0).count true ≤ 100000000

/-- Nothing is on its way. -/
def Quiet (s : Sys) : Prop := ∀ u v, s.link u v = []

/-- what was given to the network: where, to whom, how, and what -/
def Sent.pack (x : Sent) : Node × Id × Bool × Nat := (x.node, x.dest, x.prio, x.body)
/-- what the network gave: where it came from, to whom, how, and what -/
def Got.pack (x : Got) : Node × Id × Bool × Nat := (x.src, x.dest, x.prio, x.body)

/-- the contents of what `n` sent to `d` with (or without) priority, in the order of sending -/
def sentTo (s : Sys) (n : Node) (d : Id) (p : Bool) : List Nat :=
  (s.sent.filter (fun x => x.node == n && x.dest == d && x.prio == p)).map (·.body)
/-- the contents of what came from `n` for `d` with (or without) priority, in the order of arrival -/
def gotFrom (s : Sys) (n : Node) (d : Id) (p : Bool) : List Nat :=
  (s.got.filter (fun x => x.src == n && x.dest == d && x.prio == p)).map (·.body)

/-- an event by which a node takes something that is on its way -/
def Ev.moves (s : Sys) : Ev → Prop
  | .take u v first _ _ => ∃ p ∈ s.link u v, first = true → p.cmd.prio = true
  | _ => False

/-- a history in which nothing happens but that nodes take what is on its way -/
def Moving (net : Net) : Sys → List Ev → Prop
  | _, [] => True
  | s, e :: es => e.moves s ∧ Moving net (s.step net e) es

end Verif.Routes
