import Verif.Props.CallbackProps
/-! Concrete histories of callback federates (C60). -/
namespace Verif
namespace Callback
open Cb

instance (a : Ans) : Decidable a.fits :=
  match h : a.op with
  | none => isTrue (fun t it e => by rw [h] at e; cases e)
  | some (t, it) => if k : t ≤ maxVal then isTrue (fun t' it' e => by rw [h] at e; cases e; exact k) else isFalse (fun f => k (f t it h))

instance (self : FedId) (cmd : Msg) : Decidable (cmd.sane self) := by unfold Msg.sane; infer_instance

instance (self : FedId) (o : FedOp) : Decidable (o.sane self) := by
  cases o <;> unfold FedOp.sane <;> infer_instance

instance (o : FedOp) : Decidable (∀ cmd, o = .msg cmd → cmd.action ≠ .forceTimeGrant ∧ ¬ (cmd.action = .initGrant ∧ cmd.iterationRequested = true)) :=
  match o with
  | .msg cmd => if k : cmd.action ≠ .forceTimeGrant ∧ ¬ (cmd.action = .initGrant ∧ cmd.iterationRequested = true) then
      isTrue (fun _ e => by cases e; exact k) else isFalse (fun f => k (f cmd rfl))
  | .timeRequest .. | .execRequest _ | .value _ | .message _ | .setTime .. | .setFlag .. | .setMaxIterations _ =>
    isTrue (fun _ e => by cases e)

instance (self : FedId) (i : Item) : Decidable (i.sane self) := by
  cases i <;> unfold Item.sane <;> infer_instance

instance (c : Cb) (es : List Ev) : Decidable (Sane c es) := by unfold Sane; infer_instance

def noJoin (i : Item) : Bool :=
  match i with
  | .other (.msg cmd) _ => !(decide (cmd.action = .initGrant) && (cmd.interrupted || cmd.dynamicJoin))
  | _ => true

theorem notJoining_of (es : List Ev) (h : (es.all fun e => e.items.all noJoin) = true) : NotJoining es := by
  intro e he i hi cmd a hc hj
  have := List.all_eq_true.1 (List.all_eq_true.1 h e he) i hi
  subst hc
  simp [noJoin, hj.1, hj.2] at this

/-- federate 131072, new, with stop time `stop` -/
def new (stop : Time) : Cb := { fed := Fed.initial 131072 true false false, stop := stop }

theorem new_fresh (stop : Time) : Fresh (new stop) := ⟨⟨131072, true, false, false, by decide, rfl⟩, rfl, rfl, rfl, rfl, rfl⟩

def initGrant (a : Ans) : Item := .other (.msg { action := .initGrant, source := parentBroker, dest := 131072 }) a
def ack : Item := .other (.msg { action := .disconnectFedAck, source := parentBroker, dest := 131072 }) {}
/-- the own command comes back; the answer to the call it leads to is a request for time `t` -/
def back (t : Time) : Item := .own 0 maxVal maxVal { op := some (t, .noIterations) }

/-- a whole life: iterate once in initializing mode, times 0, 2 and 5, the stop time, and the end -/
def life : List Ev :=
  [.commands [initGrant {}], .enterInit,
   .commands [initGrant { init := some .forceIteration }],
   .commands [.own 0 maxVal maxVal { init := some .noIterations }],
   .commands [back 2], .commands [back 5], .commands [back 9],
   .commands [.own 0 maxVal maxVal {}], .commands [.own 0 maxVal maxVal {}], .commands [ack]]

example : Sane (new 8) life ∧ NotJoining life := ⟨by decide +kernel, notJoining_of _ (by decide +kernel)⟩
example : (run (new 8) life).told =
    [.init .initializing (some .forceIteration), .init .initializing (some .noIterations),
     .operate 0 false .executing (some (2, .noIterations)), .operate 2 false .executing (some (5, .noIterations)),
     .operate 5 false .executing (some (9, .noIterations)), .stop 9, .finalize] := by decide +kernel
example : (run (new 8) life).fed.state = .finished ∧ (run (new 8) life).done = 5 := by decide +kernel
example : (run (new 8) (life.take 5)).fed.state = .executing ∧ (run (new 8) (life.take 5)).pend = [.time 2 .noIterations] ∧
    (run (new 8) (life.take 5)).told.length = 3 := by decide +kernel

/-- an iteration in executing mode -/
def iterates : List Ev :=
  [.enterInit, .commands [initGrant {}], .commands [.own 0 maxVal maxVal { op := some (3, .forceIteration) }],
   .commands [back 4], .commands [back 9]]

example : Sane (new 8) iterates := by decide +kernel
example : (run (new 8) iterates).told =
    [.init .initializing (some .noIterations), .operate 0 false .executing (some (3, .forceIteration)),
     .operate 0 true .executing (some (4, .noIterations)), .operate 4 false .executing (some (9, .noIterations))] := by decide +kernel

/-- an exception in executing mode -/
def throws : List Ev :=
  [.enterInit, .commands [initGrant {}], .commands [.own 0 maxVal maxVal { op := none }], .commands [.own 0 maxVal maxVal {}]]

example : Sane (new 8) throws := by decide +kernel
example : (run (new 8) throws).told =
    [.init .initializing (some .noIterations), .operate 0 false .executing none, .error] ∧
    (run (new 8) throws).fed.state = .errored := by decide +kernel

/-- A federate in the error state whose application still disconnects is told of the end as well
(src/helics/core/FederateState.cpp:1243-1247 compares with the state at the start of the processing only). -/
example : (run (new 8) (throws ++ [.commands [.other (.msg { action := .disconnect, source := 131072, dest := 131072 }) {}],
    .commands [ack]])).told =
    [.init .initializing (some .noIterations), .operate 0 false .executing none, .error, .finalize] := by decide +kernel

/-- **Disagreement**: a request answered `HALTED` calls nothing.  An event-triggered federate that asks for the largest time
when nobody else is left gets neither a call nor the end: nothing is under way, the core has not been told, and it stays in
executing mode (src/helics/core/FederateState.cpp:1254-1262). -/
theorem C60_halted_counterexample :
    ∃ es, Sane (new maxVal) es ∧ NotJoining es ∧ (run (new maxVal) es).fed.state = .executing ∧ (run (new maxVal) es).fed.mode = true ∧
      (run (new maxVal) es).pend = [] ∧ Call.finalize ∉ (run (new maxVal) es).told ∧
      (run (new maxVal) es).told = [.init .initializing (some .noIterations), .operate 0 false .executing (some (maxVal, .noIterations))] ∧
      (run (new maxVal) es).done = 2 :=
  ⟨[.enterInit, .commands [initGrant {}], .commands [back maxVal], .commands [back 0]],
    by decide +kernel, notJoining_of _ (by decide +kernel), by decide +kernel⟩

/-- **Disagreement**: a federate that joins a running federation is called in executing mode while it still reports
initializing mode, because the mode is changed only by a call at time zero
(src/helics/application_api/CallbackFederate.cpp:102-108). -/
theorem C60_join_counterexample :
    ∃ es, Sane (new maxVal) es ∧ ∃ t a, t ≠ 0 ∧ Call.operate t false .initializing a ∈ (run (new maxVal) es).told :=
  ⟨[.enterInit, .commands [.other (.msg { action := .addDependency, source := 131073, dest := 131072 }) {}],
    .commands [.other (.msg { action := .initGrant, source := parentBroker, dest := 131072, dynamicJoin := true }) {}],
    .commands [.other (.msg { action := .execGrant, source := 131073, dest := 131072 }) {}],
    .commands [.other (.msg { action := .timeGrant, source := 131073, dest := 131072, actionTime := 7 }) {}],
    .commands [back 0]],
    by decide +kernel, 6, some (0, .noIterations), by decide +kernel⟩

/-- Why forced grants are left out: one that arrives while an answer is under way leads to a second call, and so to two
requests under way at once (src/helics/core/TimeCoordinatorProcessing.cpp:265-275). -/
theorem C60_forced_counterexample :
    ∃ es, (run (new maxVal) es).pend = [.time 2 .noIterations, .time 0 .noIterations] ∧
      (run (new maxVal) es).told.length = 3 ∧ (run (new maxVal) es).done = 1 :=
  ⟨[.enterInit, .commands [initGrant {}], .commands [back 2],
    .commands [.other (.msg { action := .forceTimeGrant, source := parentBroker, dest := 131072, actionTime := 1 }) {}]],
    by decide +kernel⟩

end Callback
end Verif
