import Verif.Props.Inform
import Verif.Props.InformMore
/-! # C51: examples, and where neighbours are not informed -/
namespace Verif
namespace Fwd

theorem settled_of {wiring : List Msg} {evs : List Event}
    (h : (wiring.all wires && evs.all fun e => match e with | .cmd m => !wires m | .leave => true) = true) : Settled wiring evs := by
  simp only [Bool.and_eq_true, List.all_eq_true] at h
  refine ⟨h.1, ?_⟩
  intro m hm
  have := h.2 _ hm
  simpa using this

instance (w : Fwd) (cmd : Msg) : Decidable (FromDependency w cmd) := by unfold FromDependency; infer_instance

namespace InformCase

/-- Two federates of core or broker `K`, whose parent is the root. -/
def A : FedId := 131072
/-- See `A`. -/
def B : FedId := 131073
/-- See `A`. -/
def K : FedId := 1879048194

/-- `A` and `B` are children of `K`, the root is its parent, all of them dependencies and dependents. -/
def wiring : List Msg := [
  { action := .addInterdependency, source := A, dest := K, child := true },
  { action := .addInterdependency, source := B, dest := K, child := true },
  { action := .addInterdependency, source := 1, dest := K, parent := true }]

/-- Everybody asks to enter executing mode and enters. -/
def entering : List Event := [
  .cmd { action := .execRequest, source := A, dest := K },
  .cmd { action := .execRequest, source := B, dest := K },
  .cmd { action := .execRequest, source := 1, dest := K },
  .cmd { action := .execGrant, source := A, dest := K },
  .cmd { action := .execGrant, source := B, dest := K },
  .cmd { action := .execGrant, source := 1, dest := K }]

/-- Time requests follow. -/
def asking : List Event := entering ++ [
  .cmd { action := .timeRequest, source := A, dest := K, actionTime := 5, Te := 7, Tdemin := 7 },
  .cmd { action := .timeRequest, source := B, dest := K, actionTime := 9, Te := 9, Tdemin := 9 },
  .cmd { action := .timeRequest, source := 1, dest := K, actionTime := 20, Te := 20, Tdemin := 20 }]

/-- A further request of `A`. -/
def further : Msg := { action := .timeRequest, source := A, dest := K, actionTime := 6, Te := 8, Tdemin := 8 }

/-- The assumptions of `C51_parent_informed` and `C51_children_informed` are met, for a core and a broker. -/
theorem premises (core : Bool) : Settled wiring asking ∧ attended core further = true ∧
    FromDependency (life K core true wiring asking) further ∧ (life K core true wiring asking).entered = true ∧
    (life K core true wiring (asking ++ [.cmd further])).hasDelayed = false ∧
    ((life K core true wiring (asking ++ [.cmd further])).viewUp 0).state = .timeReq ∧
    ((life K core true wiring (asking ++ [.cmd further])).viewDown true 0).state = .timeReq := by
  refine ⟨settled_of (by decide), ?_, ?_, ?_, ?_, ?_, ?_⟩
  all_goals (cases core <;> decide +kernel)

/-- What is said then: the parent hears 6 and 8, the children hear 20. -/
theorem said (core : Bool) :
    (lastTold (life K core true wiring (asking ++ [.cmd further])) 1).map (fun m => (m.action, m.actionTime, m.Te, m.extraData)) =
      some (.timeRequest, 6, 8, A) ∧
    (lastTold (life K core true wiring (asking ++ [.cmd further])) A).map (fun m => (m.action, m.actionTime)) = some (.timeRequest, 20) ∧
    (lastTold (life K core true wiring (asking ++ [.cmd further])) B).map (fun m => (m.action, m.actionTime)) = some (.timeRequest, 20) := by
  cases core <;> decide +kernel

/-- The assumptions of `C51_enters` and `C51_asks` are met: `K` has asked when `B` has asked, and enters when the root has. -/
theorem premises_entry (core : Bool) :
    Settled wiring (entering.take 1) ∧ Settled wiring (entering.take 2) ∧
    FromDependency (life K core true wiring (entering.take 1)) { action := .execRequest, source := B, dest := K } ∧
    (life K core true wiring (entering.take 2)).entered = false ∧
    ((life K core true wiring (entering.take 2)).viewUp 0).state = .execReq ∧
    FromDependency (life K core true wiring (entering.take 2)) { action := .execRequest, source := 1, dest := K } ∧
    (∀ d ∈ (life K core true wiring (entering.take 3)).deps, d.dependency = true → d.state = .execReq) ∧
    (life K core true wiring (entering.take 3)).entered = true := by
  refine ⟨settled_of (by decide), settled_of (by decide), ?_⟩
  cases core <;> decide +kernel

/-- The assumptions of `C51_nothing_false` and `C51_enters_only` are met. -/
theorem premises_more (core : Bool) :
    let w := life K core true wiring asking
    let cmd : Msg := { action := .timeRequest, source := 1, dest := K, actionTime := 25, Te := 25, Tdemin := 25 }
    w.entered = true ∧ w.executionMode = true ∧ wires cmd = false ∧ (w.handle cmd).hasDelayed = false ∧ ((w.handle cmd).viewUp (w.processTimeMessage cmd).1.seq).state = .timeReq ∧
    ((((w.handle cmd).out.drop w.out.length).flatMap Packet.parts).map fun m => (m.dest, m.actionTime, m.Te)) = [(1, 5, 7), (A, 25, 7), (B, 25, 7)] ∧
    (life K core true wiring (entering.take 2)).entered = false ∧ ((life K core true wiring (entering.take 2)).handle { action := .execRequest, source := 1, dest := K }).entered = true := by
  cases core <;> decide +kernel

/-- `A` fails. -/
def failing : List Event := asking ++ [.cmd { action := .localError, source := A, dest := K }]

/-- **C51 does not hold for a local error at a broker.** The error command of a child changes the view of a broker, but the
parent is not told: it still believes 5 when the view is 9 (src/helics/core/CoreBroker.cpp:3317-3331 hands the error to the
coordinator and does not look at the views again).  A core tells its parent. -/
theorem C51_broker_error_fails :
    ((life K false true wiring failing).viewUp 0).next = 9 ∧ ((life K false true wiring failing).viewUp 0).state = .timeReq ∧
    (lastTold (life K false true wiring failing) 1).map (·.actionTime) = some 5 ∧
    (lastTold (life K true true wiring failing) 1).map (·.actionTime) = some 9 := by decide +kernel

/-- Requests that change only the event times. -/
def events : List Event := entering ++ [
  .cmd { action := .timeRequest, source := A, dest := K, actionTime := 5, Te := 50, Tdemin := 50 },
  .cmd { action := .timeRequest, source := B, dest := K, actionTime := 5, Te := 50, Tdemin := 50 },
  .cmd { action := .timeRequest, source := 1, dest := K, actionTime := 5, Te := 20, Tdemin := 10 },
  .cmd { action := .timeRequest, source := A, dest := K, actionTime := 5, Te := 10, Tdemin := 10 },
  .cmd { action := .timeRequest, source := 1, dest := K, actionTime := 5, Te := 10, Tdemin := 10 }]

/-- **Children are not always told the event time of the view.** The parent announces the event time 10, but the children
have last heard 20: the stored view had been lowered to 10 by a child's request without telling anybody
(src/helics/core/ForwardingTimeCoordinator.cpp:67-74), so that the announcement of the parent changes nothing any more.  This is why
`C51_children_informed` speaks about the state and the next time only. -/
theorem C51_children_event_fails :
    ((life K true true wiring events).viewDown true 0).Te = 10 ∧
    (lastTold (life K true true wiring events) A).map (·.Te) = some 20 ∧
    (lastTold (life K true true wiring events) B).map (·.Te) = some 20 := by decide +kernel

/-- The children run before the parent is ready. -/
def early : List Event := [
  .cmd { action := .execRequest, source := A, dest := K },
  .cmd { action := .execRequest, source := B, dest := K },
  .cmd { action := .execGrant, source := A, dest := K },
  .cmd { action := .execGrant, source := B, dest := K },
  .cmd { action := .timeRequest, source := A, dest := K, actionTime := 5, Te := 7, Tdemin := 7 },
  .cmd { action := .timeRequest, source := B, dest := K, actionTime := 9, Te := 9, Tdemin := 9 },
  .cmd { action := .execRequest, source := 1, dest := K, iterationRequested := true },
  .cmd { action := .execRequest, source := 1, dest := K },
  .cmd { action := .timeRequest, source := B, dest := K, actionTime := 9, Te := 9, Tdemin := 9 }]

/-- **The notice of entering executing mode can be the last word.** It replaces the time request 5 the parent was told
before, and the request is not repeated although the view still is a request for 5.  This is why `Informed` has its second part. -/
theorem C51_entry_last :
    ((life K true true wiring early).viewUp 0).next = 5 ∧ ((life K true true wiring early).viewUp 0).state = .timeReq ∧
    (lastTold (life K true true wiring early) 1).map (·.action) = some .execGrant := by decide +kernel

end InformCase
end Fwd
end Verif
