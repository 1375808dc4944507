import Verif.Props.BrokerInit
/-!
# C40: a run which meets the hypotheses of `start_waits`, and runs where the code disappoints

Every theorem named `…_example` or `bug_…` evaluates the model on one concrete run.  The first shows
that the hypotheses of the general theorems can be met; the others are counterexamples to properties
one would expect.
-/
namespace Verif.Init.Cases

def A : Core := { name := "A" }
def B : Core := { name := "B" }

/-- core `i` connects, and a federate registers on it -/
def bring (i : Nat) (x : String) : List SysEv :=
  [.join i false, .up i 0, .down i 0, .api i (.register x false false 0), .up i 0, .down i 0]

/-- another federate registers on core `i` -/
def more (i : Nat) (x : String) : List SysEv :=
  [.api i (.register x false false 0), .up i 0, .down i 0]

/-- a federate asks for initialization and its core processes this -/
def ask (i : Nat) (x : String) (iter : Bool) : List SysEv := [.api i (.callInit x iter), .want i 0]

def two (es : List SysEv) : Sys := (Sys.start {} [A, B]).run es

/-- nothing is under way -/
def calm (y : Sys) : Bool := y.nodes.all (fun n => n.wants.isEmpty && n.up.isEmpty && n.down.isEmpty)

def fed (y : Sys) (i : Nat) (x : String) : Option CFed :=
  match y.nodes[i]? with
  | some n => n.core.feds.find? (fun f => f.name = x)
  | none => none

theorem fresh_A : Fresh A := ⟨rfl, rfl, rfl, rfl, rfl⟩
theorem fresh_B : Fresh B := ⟨rfl, rfl, rfl, rfl, rfl⟩

/-- a run without closing or enabling is proper -/
theorem proper_of {y : Sys} {es : List SysEv}
    (h : es.all (fun e => match e with | .api _ .close | .api _ .enableInit => false | _ => true) = true) :
    Proper y es := by
  intro es1 es2 i e n h1 h2 _
  rw [List.all_eq_true] at h
  have := h (.api i e) (by rw [h1]; simp)
  rcases h2 with rfl | rfl <;> simp at this

/-- the ordinary run: two cores with a federate each, the second one asks last -/
def normal : List SysEv :=
  bring 0 "f" ++ bring 1 "g" ++ ask 0 "f" false ++ [.up 0 0] ++ ask 1 "g" false ++
    [.up 1 0, .down 0 0, .down 1 0]

/-- the hypotheses of `start_waits` hold of it, and it starts -/
theorem normal_example :
    (∀ c ∈ [A, B], Fresh c) ∧ ([A, B].map (·.name)).Nodup ∧ Proper (Sys.start {} [A, B]) normal ∧
    (two normal).root.state = .operating ∧ (fed (two normal) 0 "f").map (·.started) = some true ∧
    (fed (two normal) 1 "g").map (·.started) = some true := by
  refine ⟨?_, by decide, proper_of (by decide +kernel), by decide +kernel, by decide +kernel, by decide +kernel⟩
  intro c hc
  rcases List.mem_cons.mp hc with rfl | hc
  · exact fresh_A
  · rw [List.mem_singleton] at hc; subst hc; exact fresh_B

/-- a root broker before its start with a known child: the hypotheses of `root_starts_iff`; with this
child asking it starts, and without enough federates it does not -/
theorem root_example :
    let b : Broker := { cfg := { minFed := 1 }, brks := [{ name := "A", gid := brkShift, parent := rootId }],
                        feds := [{ name := "f", gid := fedShift, parent := brkShift }] }
    b.cfg.isRoot = true ∧ b.state.val < BState.operating.val ∧ (b.get brkShift).isSome = true ∧
    (b.onInit brkShift false).1.state = .operating ∧
    ({ b with cfg := { minFed := 2 } } : Broker).onInit brkShift false =
      ({ b with cfg := { minFed := 2 } : Broker}.afterRequest brkShift false, []) := by
  decide +kernel

/-- a broker below the root: the hypotheses of `below_asks_iff` and `below_starts_only_on_grant` -/
theorem below_example :
    let b : Broker := { cfg := { isRoot := false, minFed := 1 }, id := brkShift,
                        brks := [{ name := "A", gid := brkShift + 1, parent := brkShift }],
                        feds := [{ name := "f", gid := fedShift, parent := brkShift + 1 }] }
    (b.get (brkShift + 1)).isSome = true ∧
    (b.onInit (brkShift + 1) false).2 = [(.parent, .init brkShift false)] ∧
    ((b.onInit (brkShift + 1) false).1.handle (.grant brkShift false false false)).1.state = .operating := by
  decide +kernel

/-! ## Runs which get stuck -/

/-- **Nobody re-checks after a departure.**  "f" asks, then the core which has not asked closes.  Now
everything the broker waits for is there, but it only looks when a request arrives: "f" waits
for ever (no message is under way) -/
theorem bug_departure_not_rechecked :
    let y := two (bring 0 "f" ++ bring 1 "g" ++ ask 0 "f" false ++
      [.up 0 0, .api 1 .close, .up 1 0, .down 0 0, .down 1 0, .down 1 0])
    y.root.ready = true ∧ y.root.state = .connected ∧ calm y = true ∧
    (fed y 0 "f").map (fun f => (f.calling, f.started)) = some (true, false) := by
  decide +kernel

/-- **A federate which leaves before asking blocks the others on its core.** -/
theorem bug_leaver_blocks_core :
    let y := two (bring 0 "f" ++ more 0 "h" ++ ask 0 "f" false ++ [.api 0 (.leave "h"), .up 0 0, .down 0 0])
    calm y = true ∧ (fed y 0 "h").map (·.gone) = some true ∧
    (y.nodes[0]?.map (·.core.ready)) = some false ∧
    (fed y 0 "f").map (fun f => (f.calling, f.started)) = some (true, false) := by
  decide +kernel

/-- **An iteration asked for by a core which then leaves swallows the start.**  The broker still
believes that somebody iterates; the round grants nothing to anybody -/
theorem bug_iterating_leaver_blocks :
    let y := two (bring 0 "f" ++ bring 1 "g" ++ ask 0 "f" true ++
      [.up 0 0, .api 0 .close, .up 0 0, .down 0 0, .down 0 0, .down 1 0] ++ ask 1 "g" false ++ [.up 1 0])
    calm y = true ∧ y.root.ready = true ∧ y.root.state = .connected ∧
    (fed y 1 "g").map (fun f => (f.calling, f.started)) = some (true, false) := by
  decide +kernel

/-- **A late federate below a sub-broker withdraws a request nobody repeats.**  The sub-broker has
asked; a federate registers on the core below it, so the sub-broker retracts; the core's state keeps it
from asking again, and the sub-broker still counts it as having asked -/
theorem bug_retract_never_repeated :
    let mid : Broker := { cfg := { isRoot := false, minFed := 1 }, id := brkShift, state := .connected,
                          brks := [{ name := "A", gid := brkShift + 1, parent := brkShift, state := .initRequested }],
                          feds := [{ name := "f", gid := fedShift, parent := brkShift + 1 }] }
    let core : Core := { name := "A", id := brkShift + 1, state := .initializing,
                         feds := [{ name := "f", asked := true }, { name := "h" }] }
    let r := mid.fedReg (brkShift + 1) "h" false false false false 0 0
    (.parent, .notReady brkShift) ∈ r.2 ∧ r.1.ready = true ∧ (core.onInit "h" false).2 = [] := by
  decide +kernel

/-- … and a retraction passing through a broker names the wrong child: the parent marks the grandchild,
and the broker in between still counts as having asked -/
theorem bug_retract_names_grandchild :
    let mid : Broker := { cfg := { isRoot := false, minFed := 0 }, id := brkShift,
                          brks := [{ name := "low", gid := brkShift + 1, parent := brkShift, state := .initRequested }] }
    let root : Broker := { cfg := { minFed := 2 },
                           brks := [{ name := "mid", gid := brkShift, parent := rootId, state := .initRequested },
                                    { name := "low", gid := brkShift + 1, parent := brkShift, nonLocal := true }] }
    (mid.onNotReady (brkShift + 1)).2 = [(.parent, .notReady (brkShift + 1))] ∧
    ((root.onNotReady (brkShift + 1)).1.brks[0]?.map (·.state)) = some .initRequested := by
  decide +kernel

/-! ## Runs which go too far -/

/-- **A federate which registers after its core asked is not waited for**: the federation starts
although "h" never asked -/
theorem late_federate_not_waited_for :
    let y := two (bring 0 "f" ++ ask 0 "f" false ++
      [.api 0 (.register "h" false false 0), .up 0 0, .up 0 0, .down 0 0, .down 0 0])
    y.root.state = .operating ∧
    (fed y 0 "h").map (fun f => (f.asked, f.calling, f.started)) = some (false, false, true) := by
  decide +kernel

/-- **Closing a core before it is registered disconnects somebody else**: the message carries the id
0, which the root reads as the index of its first child.  "B" is closed, and it is "A", which did
nothing, that is marked as gone -/
theorem bug_early_close_hits_first :
    let y := two (bring 0 "f" ++ [.api 1 .close, .up 1 0])
    (y.root.brks.map (fun k => (k.name, k.state))) = [("A", .disconnected)] ∧
    (y.nodes[0]?.map (·.core.state)) = some .connected := by
  decide +kernel

/-- **Enabling the entry of a core before it is registered asks in the name of the first child** -/
theorem bug_early_enable_asks_for_first :
    let y := (Sys.start {} [A, { B with minFed := 0, delay := 1 }]).run
      (bring 0 "f" ++ [.api 1 .enableInit, .up 1 0, .down 0 0])
    y.root.state = .operating ∧
    (fed y 0 "f").map (fun f => (f.asked, f.calling)) = some (false, false) := by
  decide +kernel

/-- **A core without federates takes any departure for its own end**: a federate of "B" leaves, and
"A", which has no federates yet, terminates -/
theorem bug_empty_core_terminates :
    let y := two ([.join 0 false, .up 0 0, .down 0 0] ++ bring 1 "g" ++ more 1 "k" ++
      [.api 1 (.leave "g"), .up 1 0, .down 0 0])
    (y.nodes[0]?.map (·.core.state)) = some .terminating := by
  decide +kernel

/-- **A request after the start starts again**, even when the broker is terminating -/
theorem bug_request_restarts :
    let b : Broker := { cfg := { minFed := 0 }, state := .terminating,
                        brks := [{ name := "A", gid := brkShift, parent := rootId, state := .initRequested }] }
    (b.onInit brkShift false).1.state = .operating ∧
    (b.onInit brkShift false).2 = [(.child "A", .grant brkShift false false false)] ∧
    (b.onInit brkShift true).1.state = .connected := by
  decide +kernel

/-- **A refused federate is counted**: a child federate with an id in use is told so, but its entry
stays and counts towards the minimum -/
theorem bug_refused_counts :
    let b : Broker := { cfg := { minFed := 2 }, feds := [{ name := "f", gid := fedShift, parent := brkShift }] }
    let r := b.fedReg brkShift "h" false false false true fedShift 0
    r.2 = [(.node brkShift, .fedAck rootId "h" invalidId (some .duplicateFedId))] ∧ r.1.countable = 2 := by
  decide +kernel

/-- **A reentrant federate cannot come back to a full federation**, although it is already counted -/
theorem bug_reentrant_full :
    let b : Broker := { cfg := { maxFed := 1, dyn := true }, state := .operating,
                        feds := [{ name := "f", gid := fedShift, parent := brkShift, state := .disconnected,
                                   reentrant := true }] }
    (b.fedReg brkShift "f" false false true false 0 0).2 =
      [(.node brkShift, .fedAck rootId "f" invalidId (some .maxFederates))] := by
  decide +kernel

end Verif.Init.Cases
