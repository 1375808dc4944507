import Verif.Lemmas.ApiHist
/-!
# C52: the calls of the application interface come in the right order

The specification (which calls may be made when, what a mode says, what a sensible order of calls to the core is) is in `Verif.Props.ApiSpec`.
-/
namespace Verif
namespace App

/-- A call that may not be made now is refused: it throws `InvalidFunctionCall` and nothing else happens. -/
theorem C52_refused (core : Core) (s : St) (o : Op) (h : ¬ Allowed s o) : act core o s = (.throws .invalidCall, s) := by
  unfold Allowed at h
  cases o <;> simp only [Op.permitted, Op.isAsync] at h <;> simp only [act]
  all_goals (cases hm : s.mode <;> cases hs : s.single <;> simp [hm, hs] at h <;>
    simp [enterInitializingMode, enterInitializingModeAsync, enterInitializingModeComplete, App.iterInit, App.iterInitAsync,
      App.iterInitComplete, enterExecutingMode, enterExecutingModeAsync, enterExecutingModeComplete, App.requestTime, App.requestTimeAsync,
      App.requestTimeComplete, requestTimeIterative, requestTimeIterativeAsync, requestTimeIterativeComplete, App.finalize, App.finalizeAsync,
      App.finalizeComplete, bind_eq, pure_eq, Act.bind, App.get, hm, hs, Act.throw])

/-- Whatever the application does and whatever the core answers, the core is called in the right order. -/
theorem C52_order (core : Core) (single pot retrigger : Bool) (now : Time) (ops : List Op)
    (h : History Careful core (start single pot retrigger now) ops) : Ordered core (run core (start single pot retrigger now) ops).calls :=
  (js_run (start_js single pot retrigger now) ops h).ord

/-- The mode tells the truth about what the core has said. -/
theorem C52_modes (core : Core) (single pot retrigger : Bool) (now : Time) (ops : List Op)
    (h : History Careful core (start single pot retrigger now) ops) :
    let s := run core (start single pot retrigger now) ops
    (s.mode = .initializing → InInit core s.calls) ∧ (s.mode = .executing ∨ s.mode = .pendingTime ∨ s.mode = .pendingIterTime → HadExec core s.calls) ∧
    (s.mode = .finished → Ended core s.calls) ∧ (s.mode = .finalize → HadFin core s.calls) ∧
    (HadFin core s.calls → s.mode = .finalize ∨ s.mode = .error ∨ s.mode = .pendingFinalize) := by
  have hj := js_run (start_js single pot retrigger now) ops h
  refine ⟨fun e => (hj.init e).2, hj.exec, hj.stop, hj.fin, fun e => ?_⟩
  rcases hj.over e with h | h | h
  · exact .inl h
  · exact .inr (.inl h)
  · exact .inr (.inr h.1)

/-- Threads are only working in the mode that waits for them: at most one is. -/
theorem C52_one_thread (core : Core) (single pot retrigger : Bool) (now : Time) (ops : List Op)
    (h : History Careful core (start single pot retrigger now) ops) (k k' : Slot) :
    let s := run core (start single pot retrigger now) ops
    s.fut k ≠ .invalid → s.fut k' ≠ .invalid → k = k' := by
  intro s h1 h2
  have hj := js_run (start_js single pot retrigger now) ops h
  have := (hj.tidy k h1).symm.trans (hj.tidy k' h2)
  revert this; cases k <;> cases k' <;> simp [Slot.pend]

/-- The life of a federate leads one way only. -/
theorem C52_forward (core : Core) (single pot retrigger : Bool) (now : Time) (ops : List Op) (o : Op)
    (ho : o = .finalizeAsync → (run core (start single pot retrigger now) ops).mode ≠ .pendingExec ∧ (run core (start single pot retrigger now) ops).mode ≠ .pendingIterTime) :
    let s := run core (start single pot retrigger now) ops
    s.mode.rank ≤ (act core o s).2.mode.rank := by
  intro s
  refine ((closed_rank (core := core) s.mode.rank).act o (Nat.le_refl _) (F_run (F_start _ _ _ _) ops) ?_ ?_ ?_ ?_).1
  · intros; decide
  · intro _ _ h; exact h
  · intro e m hm
    have := ho e
    change s.mode ≠ .pendingExec ∧ s.mode ≠ .pendingIterTime at this
    revert this hm
    generalize s.mode = x
    cases x <;> cases m <;> simp [finFrom, Mode.rank]
  · intros; decide

/-- A federate in the error mode stays there. -/
theorem C52_error_stays (core : Core) (single pot retrigger : Bool) (now : Time) (ops : List Op) (o : Op)
    (h : (run core (start single pot retrigger now) ops).mode = .error) : (act core o (run core (start single pot retrigger now) ops)).2.mode = .error := by
  refine ((closed_error (core := core)).act o h (F_run (F_start _ _ _ _) ops) ?_ ?_ ?_ ?_).1
  · intro _ _ _ e; cases e
  · intro _ _ e; cases e
  · intro _ m hm; rw [h] at hm; simp [finFrom] at hm
  · intro _ _ e; cases e

end App
end Verif
