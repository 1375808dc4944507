import Verif.Model.FedRun
import Verif.Lemmas.Grant
/-! Invariant of a federate's history. -/
namespace Verif

/-- the command is well formed for a federate: its time fits the 64-bit counter and it does not pretend to be
the federate's own API request -/
def Msg.sane (self : FedId) (cmd : Msg) : Prop :=
  cmd.actionTime ≤ maxVal ∧
  ¬ ((cmd.action = .execRequest ∨ cmd.action = .timeRequest) ∧ cmd.source = self ∧ cmd.indicator = true)

/-- the event is well formed -/
def FedOp.sane (self : FedId) : FedOp → Prop
  | .msg cmd => cmd.sane self
  | .value cmd => cmd.action = .pub ∧ cmd.actionTime ≤ maxVal
  | .message cmd => cmd.action = .sendMessage ∧ cmd.actionTime ≤ maxVal
  | .setTime _ v => v ≤ maxVal
  | .timeRequest t _ _ _ => t ≤ maxVal
  | _ => True

namespace Fed
open TC

/-- invariant of histories -/
structure Inv (f : Fed) : Prop where
  good : GoodTime f.tc
  self : f.tc.self ≠ parentBroker
  pend : f.state = .executing → f.mode = false → f.tc.granted ≤ f.tc.requested

theorem GoodTime.congr {a b : TC} (h : b.core = a.core) (x : GoodTime a) : GoodTime b :=
  (Keep.of_core h).base x

/-- the core after a value or message notification: only the event times and the data flags change -/
structure DataOnly (a b : TC) : Prop where
  h : ∃ v m i d, b.core = { a.core with value := v, message := m, hasInitUpdates := i, hasIterationData := d }
  hb : b.blocks = a.blocks

theorem DataOnly.refl (a : TC) : DataOnly a a := ⟨⟨a.value, a.message, a.hasInitUpdates, a.hasIterationData, rfl⟩, rfl⟩

theorem dataOnly_updateValueTime (tc : TC) (t : Time) (s : Bool) : DataOnly tc (tc.updateValueTime t s) := by
  unfold updateValueTime
  split
  · split
    · exact ⟨⟨tc.value, tc.message, true, tc.hasIterationData, rfl⟩, rfl⟩
    · exact DataOnly.refl _
  · have key : ∀ u : TC, DataOnly tc u → DataOnly tc
        (if t < u.value then
          let ptime := u.value
          let np := u.getNextPossibleTime
          let v := if u.iterating ≠ .noIterations then (if t ≤ u.granted then u.granted else t)
            else (if t ≤ np then np else t)
          let tc := { u with value := v }
          if v < ptime ∧ !tc.disconnected then
            let r := tc.updateNextExecutionTime
            if r.2 && s then r.1.sendTimeRequest invalidFed else r.1
          else tc
        else u) := by
      intro u ⟨⟨v, m, i, d, hc⟩, hb⟩
      split
      · simp only
        have h0 : ∀ w : Time, DataOnly tc { u with value := w } := fun w => by
          refine ⟨⟨w, m, i, d, ?_⟩, hb⟩
          exact congrArg (fun c : Core => { c with value := w }) hc
        generalize (if u.iterating ≠ .noIterations then (if t ≤ u.granted then u.granted else t) else _) = w
        split
        · split
          · refine ⟨?_, (core_sendTimeRequest _ _).2.trans hb⟩
            rw [(core_sendTimeRequest _ _).1]
            exact (h0 w).h
          · exact ⟨(h0 w).h, hb⟩
        · exact h0 w
      · exact ⟨⟨v, m, i, d, hc⟩, hb⟩
    refine key (if t ≤ tc.granted then { tc with hasIterationData := true } else tc) ?_
    split
    · exact ⟨⟨tc.value, tc.message, tc.hasInitUpdates, true, rfl⟩, rfl⟩
    · exact DataOnly.refl _

theorem dataOnly_updateMessageTime (tc : TC) (t : Time) (s : Bool) : DataOnly tc (tc.updateMessageTime t s) := by
  unfold updateMessageTime
  split
  · split
    · exact ⟨⟨tc.value, tc.message, true, tc.hasIterationData, rfl⟩, rfl⟩
    · exact DataOnly.refl _
  · have key : ∀ u : TC, DataOnly tc u → DataOnly tc
        (if t < u.message then
          let ptime := u.message
          let np := u.getNextPossibleTime
          let v := if u.iterating ≠ .noIterations then (if t ≤ u.granted then u.granted else t)
            else (if t ≤ np then np else t)
          let tc := { u with message := v }
          if v < ptime ∧ !tc.disconnected then
            let r := tc.updateNextExecutionTime
            if r.2 && s then r.1.sendTimeRequest invalidFed else r.1
          else tc
        else u) := by
      intro u ⟨⟨v, m, i, d, hc⟩, hb⟩
      split
      · simp only
        have h0 : ∀ w : Time, DataOnly tc { u with message := w } := fun w => by
          refine ⟨⟨v, w, i, d, ?_⟩, hb⟩
          exact congrArg (fun c : Core => { c with message := w }) hc
        generalize (if u.iterating ≠ .noIterations then (if t ≤ u.granted then u.granted else t) else _) = w
        split
        · split
          · refine ⟨?_, (core_sendTimeRequest _ _).2.trans hb⟩
            rw [(core_sendTimeRequest _ _).1]
            exact (h0 w).h
          · exact ⟨(h0 w).h, hb⟩
        · exact h0 w
      · exact ⟨⟨v, m, i, d, hc⟩, hb⟩
    refine key (if t ≤ tc.granted then { tc with hasIterationData := true } else tc) ?_
    split
    · exact ⟨⟨tc.value, tc.message, tc.hasInitUpdates, true, rfl⟩, rfl⟩
    · exact DataOnly.refl _

theorem DataOnly.step {a b : TC} (h : DataOnly a b) (cmd : Msg) (hc : cmd.action = .pub ∨ cmd.action = .sendMessage) :
    DataOnly a (b.processTimeMessage cmd).1 := by
  have hne : cmd.action ≠ .forceTimeGrant := by rcases hc with h | h <;> rw [h] <;> decide
  have hnb : isBlockCmd cmd.action = false := by rcases hc with h | h <;> rw [h] <;> rfl
  obtain ⟨v, m, i, d, e⟩ := h.h
  refine ⟨⟨v, m, i, d, ?_⟩, ((core_processTimeMessage b cmd hne).2 hnb).trans h.hb⟩
  rw [(core_processTimeMessage b cmd hne).1, e]

theorem dataOnly_valueArrives (f : Fed) (cmd : Msg) (hc : cmd.action = .pub) :
    DataOnly f.tc (f.valueArrives cmd).tc := by
  unfold valueArrives
  simp only
  have := dataOnly_updateValueTime f.tc cmd.actionTime (!f.mode)
  split
  · exact this.step cmd (Or.inl hc)
  · exact this

theorem dataOnly_messageArrives (f : Fed) (cmd : Msg) (hc : cmd.action = .sendMessage) :
    DataOnly f.tc (f.messageArrives cmd).tc := by
  unfold messageArrives
  simp only
  have := dataOnly_updateMessageTime f.tc cmd.actionTime (!f.mode)
  split
  · exact this.step cmd (Or.inr hc)
  · exact this

theorem DataOnly.fields {a b : TC} (h : DataOnly a b) :
    b.granted = a.granted ∧ b.grantBase = a.grantBase ∧ b.info = a.info ∧ b.self = a.self ∧
    b.requested = a.requested ∧ b.iterating = a.iterating ∧ b.iteration = a.iteration := by
  obtain ⟨v, m, i, d, e⟩ := h.h
  exact ⟨congrArg Core.granted e, congrArg Core.grantBase e, congrArg Core.info e, congrArg Core.self e,
    congrArg Core.requested e, congrArg Core.iterating e, congrArg Core.iteration e⟩

theorem DataOnly.good {a b : TC} (h : DataOnly a b) (g : GoodTime a) : GoodTime b := by
  obtain ⟨h1, h2, h3, _⟩ := h.fields
  exact ⟨by rw [h1, h2]; exact g.base, by rw [h1]; exact g.range, by rw [h3]; exact g.delta, by rw [h3]; exact g.offset⟩

/-- a grant check does not go back in time and keeps the invariants -/
theorem grant_mono (g : TC) (trig : FedId) (hg : GoodTime g) (hr : g.granted ≤ g.requested) :
    GoodTime (g.checkTimeGrant trig).1 ∧ (g.checkTimeGrant trig).1.self = g.self ∧
    g.granted ≤ (g.checkTimeGrant trig).1.granted ∧
    ((g.checkTimeGrant trig).2 = .continueProcessing → (g.checkTimeGrant trig).1.core = g.core) ∧
    ((g.checkTimeGrant trig).2 = .halted → (g.checkTimeGrant trig).1.granted = maxVal) := by
  have hct : cTerm < maxVal := by decide
  have hge := nextExec_ge g hg hr
  have hrange := hg.range
  have fin : ∀ t : Time, t ≤ maxVal → g.granted ≤ t → ∀ u : TC,
      u.granted = t → u.grantBase = t → u.info = g.info → u.self = g.self →
      GoodTime u ∧ u.self = g.self ∧ g.granted ≤ u.granted := by
    intro t h1 h2 u h3 h4 h5 h6
    exact ⟨⟨by rw [h3, h4], by rw [h3]; exact h1, by rw [h5]; exact hg.delta, by rw [h5]; exact hg.offset⟩, h6, by rw [h3]; exact h2⟩
  generalize hx : g.checkTimeGrant trig = x
  have ho := checkTimeGrant_outcome g trig
  rw [hx] at ho
  rcases ho with ⟨h1, _, _, h4⟩ | ⟨h1, h2⟩ | ⟨h1, _, _, ht, ha, h4⟩ | ⟨h1, _, _, ht, ha, h4⟩
  · obtain ⟨a, b, c⟩ := fin maxVal (Int.le_refl _) hrange x.1 (congrArg Core.granted h4) (congrArg Core.grantBase h4)
      (congrArg Core.info h4) (congrArg Core.self h4)
    exact ⟨a, b, c, (fun h => by rw [h1] at h; cases h), fun _ => congrArg Core.granted h4⟩
  · have e : x.1.granted = g.granted := congrArg Core.granted h2
    exact ⟨GoodTime.congr h2 hg, congrArg Core.self h2, by omega, fun _ => h2, (fun h => by rw [h1] at h; cases h)⟩
  · obtain ⟨a, b, c⟩ := fin g.nextExec (by omega) hge x.1 (congrArg Core.granted h4) (congrArg Core.grantBase h4)
      (congrArg Core.info h4) (congrArg Core.self h4)
    exact ⟨a, b, c, (fun h => by rw [h1] at h; cases h), (fun h => by rw [h1] at h; cases h)⟩
  · split at h4
    · obtain ⟨a, b, c⟩ := fin g.granted hg.range (Int.le_refl _) x.1 (congrArg Core.granted h4)
        ((congrArg Core.grantBase h4).trans hg.base) (congrArg Core.info h4) (congrArg Core.self h4)
      exact ⟨a, b, c, (fun h => by rw [h1] at h; cases h), (fun h => by rw [h1] at h; cases h)⟩
    · obtain ⟨a, b, c⟩ := fin g.nextExec (by omega) hge x.1 (congrArg Core.granted h4) (congrArg Core.grantBase h4)
        (congrArg Core.info h4) (congrArg Core.self h4)
      exact ⟨a, b, c, (fun h => by rw [h1] at h; cases h), (fun h => by rw [h1] at h; cases h)⟩

/-- what a message does to an executing federate satisfying the invariant -/
theorem effect_inv {f : Fed} {cmd : Msg} {r : Fed × MPR} (e : Effect f cmd r) (hi : Inv f)
    (hs : f.state = .executing) (hct : cmd.actionTime ≤ maxVal) :
    Inv r.1 ∧ (r.1.state = .executing → f.tc.granted ≤ r.1.tc.granted) ∧ f.state.rank ≤ r.1.state.rank ∧
    (∀ t, returned r = some t → t = r.1.tc.granted) := by
  have hrank : ∀ s : FedState, s = .executing ∨ left s → f.state.rank ≤ s.rank := by
    intro s h
    rw [hs]
    rcases h with h | h | h | h <;> rw [h] <;> decide
  cases e with
  | quiet h1 hm hc _ hp =>
    have eg : r.1.tc.granted = f.tc.granted := congrArg Core.granted hc
    have er : r.1.tc.requested = f.tc.requested := congrArg Core.requested hc
    refine ⟨⟨GoodTime.congr hc hi.good, ?_, ?_⟩, fun _ => ?_, hrank _ (Or.inl h1), ?_⟩
    · rw [show r.1.tc.self = f.tc.self from congrArg Core.self hc]; exact hi.self
    · intro _ h; rw [eg, er]; exact hi.pend hs (hm ▸ h)
    · omega
    · intro t ht
      unfold returned at ht
      rw [if_pos h1] at ht
      rcases hp with h | h | h <;> rw [h] at ht <;> cases ht
  | attempt g trig hm hg _ h1 ht hp hm' =>
    have gg := GoodTime.congr hg hi.good
    have hpd := hi.pend hs hm
    rw [show f.tc.granted = g.granted from (congrArg Core.granted hg).symm,
      show f.tc.requested = g.requested from (congrArg Core.requested hg).symm] at hpd
    obtain ⟨a, b, c, d, e⟩ := grant_mono g trig gg hpd
    refine ⟨⟨by rw [ht]; exact a, ?_, ?_⟩, fun _ => ?_, hrank _ (Or.inl h1), ?_⟩
    · rw [ht, b, show g.self = f.tc.self from congrArg Core.self hg]; exact hi.self
    · intro _ h
      have hcp : (g.checkTimeGrant trig).2 = .continueProcessing := by
        rw [hm'] at h
        rcases grant_results g trig with k | k | k | k <;> rw [k] at h ⊢ <;> cases h
      have hcc := d hcp
      rw [ht, show (g.checkTimeGrant trig).1.granted = g.granted from congrArg Core.granted hcc,
        show (g.checkTimeGrant trig).1.requested = g.requested from congrArg Core.requested hcc]
      exact hpd
    · rw [ht, ← show g.granted = f.tc.granted from congrArg Core.granted hg]; exact c
    · intro t hr
      unfold returned at hr
      rw [if_pos h1, hp] at hr
      rcases grant_results g trig with k | k | k | k <;> rw [k] at hr <;> simp only [Option.some.injEq, reduceCtorEq] at hr
      · exact hr.symm
      · exact hr.symm
      · rw [ht, e k]; exact hr.symm
  | forced ha h1 hm ht hc hgb _ hp =>
    have eg : r.1.tc.granted = cmd.actionTime := congrArg Core.granted hc
    have ei : r.1.tc.info = f.tc.info := congrArg Core.info hc
    refine ⟨⟨⟨?_, ?_, by rw [ei]; exact hi.good.delta, by rw [ei]; exact hi.good.offset⟩, ?_, ?_⟩, fun _ => by omega,
      hrank _ (Or.inl h1), ?_⟩
    · have := hi.good.base
      rcases hgb with h | ⟨h, h'⟩ <;> omega
    · omega
    · rw [show r.1.tc.self = f.tc.self from congrArg Core.self hc]; exact hi.self
    · intro _ h; rw [hm] at h; cases h
    · intro t hr
      unfold returned at hr
      rw [if_pos h1, hp] at hr
      cases hr; rfl
  | exit h1 hc =>
    have hne : r.1.state ≠ .executing := by rcases h1 with h | h | h <;> rw [h] <;> decide
    refine ⟨⟨?_, ?_, fun h => absurd h hne⟩, fun h => absurd h hne, hrank _ (Or.inr h1), ?_⟩
    · rcases hc with h | h
      · exact GoodTime.congr h hi.good
      · exact (Keep.of_core_both maxVal (Int.le_refl _) h).base hi.good
    · rcases hc with h | h <;> rw [show r.1.tc.self = f.tc.self from congrArg Core.self h] <;> exact hi.self
    · intro t hr
      unfold returned at hr
      rw [if_neg hne] at hr
      cases hr

theorem secondSwitch_notExec (f : Fed) (cmd : Msg) (hs : f.state ≠ .executing) (x : Fed × MPR)
    (hx : secondSwitch f cmd = some x) : x.1.state ≠ .executing := by
  unfold secondSwitch at hx
  split at hx
  · split at hx
    · cases hx
    · cases hx; exact hs
  iterate 2
    · split at hx
      · split at hx
        · cases hx
          intro h
          change (if f.state ≠ .errored then FedState.terminating else f.state) = _ at h
          split at h
          · cases h
          · exact absurd h hs
        · cases hx; exact hs
      · simp only at hx
        split at hx
        · cases hx; exact hs
        · cases hx; exact hs
        · cases hx; exact hs
  · cases hx; exact hs

/-- executing mode is entered with a `NEXT_STEP` result -/
theorem processN_enter (n : Nat) (f : Fed) (cmd : Msg) (hs : f.state ≠ .executing)
    (he : (processN n f cmd).1.state = .executing) : (processN n f cmd).2 = .nextStep := by
  induction n generalizing f cmd with
  | zero => exact absurd he hs
  | succ n ih =>
    have hp := coordinator_progress f cmd
    unfold processN at he ⊢
    generalize f.coordinator cmd = r at hp he
    obtain ⟨g, p, c⟩ := r
    simp only at hp he ⊢
    by_cases hk : g.state = f.state ∨ left g.state
    · rw [stateChange_same f g hk] at he ⊢
      simp only [Bool.false_eq_true, if_false] at he ⊢
      have hg : g.state ≠ .executing := by
        rcases hk with e | e | e | e
        · rw [e]; exact hs
        all_goals rw [e]; decide
      split at he
      · split at he
        · rename_i x hx
          exact absurd he (secondSwitch_notExec g c hg _ hx)
        · exact ih g _ hg he
      · split at he
        · exact absurd he hg
        · rename_i hd
          rw [if_neg hd]
          exact ih g _ hg he
      · exact absurd he hg
    · have : p = .nextStep := by
        rcases hp with h | h | h
        · exact absurd (Or.inl h) hk
        · exact absurd (Or.inr h) hk
        · exact h
      subst this
      split at he
      · rename_i h2
        exfalso
        unfold stateChange at h2 he
        split at h2
        · cases h2
        · split at h2
          · split at h2
            · rename_i h3 _ h4 h5
              rw [if_neg h3, h4] at he
              simp only [h5] at he
              cases he
            · cases h2
          · cases h2
          · cases h2
      · rename_i h2
        rw [if_neg h2]

theorem timeRequest_core (tc : TC) (t : Time) (it : IterReq) (nv nm : Time) :
    (tc.timeRequest t it nv nm).core = (tc.prepRequest t it nv nm).core ∧
    (tc.timeRequest t it nv nm).blocks = tc.blocks := by
  unfold timeRequest
  simp only
  split
  · exact core_updateTimeFactors _
  · exact ⟨(core_sendTimeRequest _ _).1.trans (core_updateTimeFactors _).1,
      (core_sendTimeRequest _ _).2.trans (core_updateTimeFactors _).2⟩

theorem timeRequest_fields (tc : TC) (t : Time) (it : IterReq) (nv nm : Time) :
    let u := tc.timeRequest t it nv nm
    u.granted = tc.granted ∧ u.grantBase = tc.grantBase ∧ u.info = tc.info ∧ u.self = tc.self ∧ u.iterating = it ∧
    u.iteration = tc.iteration ∧ u.nonGranting = tc.nonGranting ∧
    u.requested = (if it ≠ .noIterations then (if t < tc.granted ∨ it = .forceIteration then tc.granted else t)
      else (if t < tc.getNextPossibleTime then tc.getNextPossibleTime else t)) := by
  simp only
  have h := (timeRequest_core tc t it nv nm).1
  exact ⟨congrArg Core.granted h, congrArg Core.grantBase h, congrArg Core.info h, congrArg Core.self h,
    congrArg Core.iterating h, congrArg Core.iteration h, congrArg Core.nonGranting h, congrArg Core.requested h⟩

/-- one event -/
structure StepOk (f : Fed) (r : Fed × MPR) : Prop where
  inv : Inv r.1
  mono : f.state = .executing → r.1.state = .executing → f.tc.granted ≤ r.1.tc.granted
  rank : f.state.rank ≤ r.1.state.rank
  ret : ∀ t, returned r = some t → t = r.1.tc.granted
  enter : f.state ≠ .executing → r.1.state = .executing → f.state = .initializing
  self : r.1.tc.self = f.tc.self

theorem process_ok (f : Fed) (cmd : Msg) (hi : Inv f) (hc : cmd.actionTime ≤ maxVal)
    (ho : f.state = .executing → ¬ ownExec f cmd) : StepOk f (f.process cmd) := by
  by_cases hs : f.state = .executing
  · have he := process_effect f cmd hs (ho hs) hi.self
    obtain ⟨a, b, c, d⟩ := effect_inv he hi hs hc
    refine ⟨a, fun _ => b, c, d, fun h => absurd hs h, ?_⟩
    cases he with
    | quiet _ _ h => exact congrArg Core.self h
    | attempt g trig _ hg _ _ ht =>
      rw [ht, ← show g.self = f.tc.self from congrArg Core.self hg]
      rcases checkTimeGrant_outcome g trig with ⟨_, _, _, h⟩ | ⟨_, h⟩ | ⟨_, _, _, _, _, h⟩ | ⟨_, _, _, _, _, h⟩
      · exact congrArg Core.self h
      · exact congrArg Core.self h
      · exact congrArg Core.self h
      · split at h <;> exact congrArg Core.self h
    | forced _ _ _ _ h => exact congrArg Core.self h
    | exit _ h => rcases h with h | h <;> exact congrArg Core.self h
  · have h := process_other f cmd hs hc
    refine ⟨⟨h.keep.base hi.good, by rw [h.keep.self]; exact hi.self, ?_⟩, fun h => absurd h hs, h.rank, ?_, ?_, h.keep.self⟩
    · intro he hm
      have := (h.enter he).2
      rw [this] at hm; cases hm
    · intro t ht
      unfold returned at ht
      split at ht
      · rename_i he
        have := processN_enter 4 f cmd hs he
        unfold process at ht
        rw [this] at ht
        cases ht; rfl
      · cases ht
    · intro _ he; exact (h.enter he).1

theorem request_ok (f : Fed) (hi : Inv f) (hs : f.state = .executing) (t : Time) (it : IterReq) (nv nm : Time)
    (ht : t ≤ maxVal) : StepOk f (f.request t it nv nm) := by
  obtain ⟨h1, h2, h3, h4, h5, _, _, h6⟩ := timeRequest_fields f.tc t it nv nm
  have hnp := nextPossible_ge' f.tc hi.good
  unfold request
  have hinv : Inv { f with tc := f.tc.timeRequest t it nv nm, mode := false } := by
    refine ⟨⟨?_, ?_, ?_, ?_⟩, ?_, ?_⟩
    · show (f.tc.timeRequest t it nv nm).grantBase = (f.tc.timeRequest t it nv nm).granted
      rw [h1, h2]; exact hi.good.base
    · show (f.tc.timeRequest t it nv nm).granted ≤ _
      rw [h1]; exact hi.good.range
    · show 1 ≤ (f.tc.timeRequest t it nv nm).info.timeDelta ∧ 0 ≤ (f.tc.timeRequest t it nv nm).info.inputDelay ∧
        0 ≤ (f.tc.timeRequest t it nv nm).info.outputDelay ∧ 0 ≤ (f.tc.timeRequest t it nv nm).info.period
      rw [h3]; exact hi.good.delta
    · show 0 ≤ (f.tc.timeRequest t it nv nm).info.offset ∧ (f.tc.timeRequest t it nv nm).info.offset ≤ _
      rw [h3]; exact hi.good.offset
    · show (f.tc.timeRequest t it nv nm).self ≠ _
      rw [h4]; exact hi.self
    · intro _ _
      show (f.tc.timeRequest t it nv nm).granted ≤ (f.tc.timeRequest t it nv nm).requested
      rw [h1, h6]
      repeat' split
      all_goals omega
  have := process_ok { f with tc := f.tc.timeRequest t it nv nm, mode := false }
    { action := .timeCheck, source := f.tc.self, dest := f.tc.self, actionTime := t } hinv ht (fun _ h => nomatch h.1)
  refine ⟨this.inv, ?_, this.rank, this.ret, fun h => absurd hs h, this.self.trans h4⟩
  intro a b
  have := this.mono a b
  rw [show ({ f with tc := f.tc.timeRequest t it nv nm, mode := false } : Fed).tc.granted = f.tc.granted from h1] at this
  exact this

theorem step_ok (limit : Int) (f : Fed) (o : FedOp) (hi : Inv f) (ho : o.sane f.tc.self) : StepOk f (f.step limit o) := by
  have hsame : ∀ tc p, (∀ t, returned ({ f with tc := tc }, p) = some t → t = tc.granted) →
      tc.granted = f.tc.granted → tc.self = f.tc.self → tc.requested = f.tc.requested → GoodTime tc →
      StepOk f ({ f with tc := tc }, p) := by
    intro tc p hr h1 h2 h3 h4
    refine ⟨⟨h4, ?_, ?_⟩, fun _ _ => by show f.tc.granted ≤ tc.granted; omega, Nat.le_refl _, hr, fun h h' => absurd h' h, h2⟩
    · show tc.self ≠ _; rw [h2]; exact hi.self
    · intro a b; show tc.granted ≤ tc.requested; rw [h1, h3]; exact hi.pend a b
  have hbusy : StepOk f (f, .busy) := hsame f.tc .busy (by
    intro t ht; unfold returned at ht; split at ht <;> cases ht) rfl rfl rfl hi.good
  have hnone : ∀ g : Fed, ∀ t, returned (g, .continueProcessing) = some t → t = g.tc.granted := by
    intro g t ht; unfold returned at ht; split at ht <;> cases ht
  cases o with
  | msg cmd => exact process_ok f cmd hi ho.1 (fun _ h => ho.2 ⟨Or.inl h.1, h.2.1, h.2.2⟩)
  | timeRequest t it nv nm =>
    simp only [step]
    split
    · rename_i h; exact request_ok f hi h.1 t _ nv nm ho
    · exact hbusy
  | execRequest it =>
    simp only [step]
    split
    · rename_i h
      refine process_ok f _ hi ?_ (fun h' => by rw [h.1] at h'; cases h')
      cases it <;> (show (0 : Int) ≤ maxVal; decide)
    · exact hbusy
  | value cmd =>
    have hd := dataOnly_valueArrives f cmd ho.1
    exact hsame (f.valueArrives cmd).tc .continueProcessing (hnone _) hd.fields.1 hd.fields.2.2.2.1
      hd.fields.2.2.2.2.1 (hd.good hi.good)
  | message cmd =>
    have hd := dataOnly_messageArrives f cmd ho.1
    exact hsame (f.messageArrives cmd).tc .continueProcessing (hnone _) hd.fields.1 hd.fields.2.2.2.1
      hd.fields.2.2.2.2.1 (hd.good hi.good)
  | setTime p v =>
    simp only [step]
    split
    · exact hbusy
    · refine hsame _ _ (hnone _) rfl rfl rfl ?_
      have hv : v ≤ maxVal := ho
      obtain ⟨d1, d2, d3, d4⟩ := hi.good.delta
      rename_i hneg
      refine ⟨hi.good.base, hi.good.range, ?_, ?_⟩
      · cases p
        case timeDelta =>
          refine ⟨?_, d2, d3, d4⟩
          show 1 ≤ (if v ≤ 0 then timeEpsilon else v)
          split
          · decide
          · omega
        case inputDelay => exact ⟨d1, by show 0 ≤ v; omega, d3, d4⟩
        case outputDelay => exact ⟨d1, d2, by show 0 ≤ v; omega, d4⟩
        case period => exact ⟨d1, d2, d3, by show 0 ≤ v; omega⟩
        all_goals exact ⟨d1, d2, d3, d4⟩
      · cases p
        case offset => exact ⟨by show 0 ≤ v; omega, hv⟩
        all_goals exact hi.good.offset
  | setFlag o v =>
    refine hsame _ _ (hnone _) rfl rfl rfl ?_
    cases o <;> exact ⟨hi.good.base, hi.good.range, hi.good.delta, hi.good.offset⟩
  | setMaxIterations v =>
    exact hsame _ _ (hnone _) rfl rfl rfl ⟨hi.good.base, hi.good.range, hi.good.delta, hi.good.offset⟩

theorem initial_inv (s : FedId) (a b c : Bool) (hs : s ≠ parentBroker) : Inv (initial s a b c) :=
  ⟨⟨rfl, (show minVal ≤ maxVal by decide), (show 1 ≤ (1:Int) ∧ 0 ≤ (0:Int) ∧ 0 ≤ (0:Int) ∧ 0 ≤ (0:Int) by decide),
    (show 0 ≤ (0:Int) ∧ (0:Int) ≤ maxVal by decide)⟩, hs, fun h => nomatch h⟩

theorem run_ok (limit : Int) (f : Fed) (ops : List FedOp) (hi : Inv f) (ho : ∀ o ∈ ops, o.sane f.tc.self) :
    Inv (f.run limit ops) ∧ f.state.rank ≤ (f.run limit ops).state.rank ∧ (f.run limit ops).tc.self = f.tc.self := by
  induction ops generalizing f with
  | nil => exact ⟨hi, Nat.le_refl _, rfl⟩
  | cons o os ih =>
    have h := step_ok limit f o hi (ho o (by simp))
    obtain ⟨a, b, c⟩ := ih (f.step limit o).1 h.inv (by intro o' h'; rw [h.self]; exact ho o' (by simp [h']))
    exact ⟨a, Nat.le_trans h.rank b, c.trans h.self⟩

/-- all times returned from here on are at least the current one -/
theorem grants_ge (limit : Int) (f : Fed) (ops : List FedOp) (hi : Inv f) (ho : ∀ o ∈ ops, o.sane f.tc.self) :
    (FedState.executing.rank ≤ f.state.rank → ∀ t ∈ f.grants limit ops, f.tc.granted ≤ t) ∧
    (f.grants limit ops).Pairwise (· ≤ ·) := by
  induction ops generalizing f with
  | nil => exact ⟨fun _ _ h => (nomatch h), List.Pairwise.nil⟩
  | cons o os ih =>
    have h := step_ok limit f o hi (ho o (by simp))
    obtain ⟨a, b⟩ := ih (f.step limit o).1 h.inv (by intro o' h'; rw [h.self]; exact ho o' (by simp [h']))
    have hempty : ∀ (g : Fed) (l : List FedOp), Inv g → (∀ o ∈ l, o.sane g.tc.self) → FedState.executing.rank < g.state.rank →
        g.grants limit l = [] := by
      intro g l
      induction l generalizing g with
      | nil => intro _ _ _; rfl
      | cons o' l' ih' =>
        intro hg hl hr
        have h' := step_ok limit g o' hg (hl o' (by simp))
        have hr' : FedState.executing.rank < (g.step limit o').1.state.rank := Nat.lt_of_lt_of_le hr h'.rank
        have hne : (g.step limit o').1.state ≠ .executing := by intro e; rw [e] at hr'; omega
        unfold grants
        simp only
        rw [ih' _ h'.inv (by intro o'' h''; rw [h'.self]; exact hl o'' (by simp [h''])) hr']
        unfold returned
        rw [if_neg hne]; rfl
    unfold grants
    simp only
    constructor
    · intro hr t ht
      by_cases hs : f.state = .executing
      · by_cases hs' : (f.step limit o).1.state = .executing
        · have hm := h.mono hs hs'
          rcases List.mem_append.1 ht with h1 | h1
          · split at h1
            · rename_i t' e
              have := h.ret t' e
              simp only [List.mem_singleton] at h1
              omega
            · cases h1
          · have := a (by rw [hs']; exact Nat.le_refl _) t h1
            omega
        · exfalso
          have hr' := h.rank
          rw [hs] at hr'
          have hlt : FedState.executing.rank < (f.step limit o).1.state.rank := by
            rcases hx : (f.step limit o).1.state with _ | _ | _ | _ | _ | _ <;> rw [hx] at hr' hs' <;>
              first | exact absurd rfl hs' | decide | exact absurd hr' (by decide)
          rw [hempty _ os h.inv (by intro o' h'; rw [h.self]; exact ho o' (by simp [h'])) hlt] at ht
          unfold returned at ht
          rw [if_neg hs'] at ht
          cases ht
      · exfalso
        have hlt : FedState.executing.rank < f.state.rank := by
          rcases hx : f.state with _ | _ | _ | _ | _ | _ <;> rw [hx] at hr hs <;>
            first | exact absurd rfl hs | decide | exact absurd hr (by decide)
        have := hempty f (o :: os) hi ho hlt
        unfold grants at this
        simp only at this
        rw [this] at ht
        cases ht
    · rw [List.pairwise_append]
      refine ⟨?_, b, ?_⟩
      · split
        · exact List.pairwise_singleton _ _
        · exact List.Pairwise.nil
      · intro x hx y hy
        split at hx
        · rename_i t' e
          have hs' : (f.step limit o).1.state = .executing := by
            unfold returned at e
            split at e
            · assumption
            · cases e
          have h1 := h.ret t' e
          have h2 := a (by rw [hs']; exact Nat.le_refl _) y hy
          simp only [List.mem_singleton] at hx
          omega
        · cases hx

/-- the earliest time an unsolicited event may be given to the pending request -/
def floorOf (tc : TC) (it : IterReq) : Time := if it = .noIterations then tc.getNextPossibleTime else tc.granted

/-- the time the federate is taken to ask for (src/helics/core/TimeCoordinator.cpp:229-244) -/
def asked (tc : TC) (t : Time) (it : IterReq) : Time :=
  if it = .noIterations then max t tc.getNextPossibleTime
  else if it = .forceIteration then tc.granted else max t tc.granted

/-- `u` is waiting for the answer to the request `(t, it)` made in state `f` -/
structure Pending (f : Fed) (t : Time) (it : IterReq) (u : Fed) : Prop where
  state : u.state = .executing
  mode : u.mode = false
  granted : u.tc.granted = f.tc.granted
  base : u.tc.grantBase = f.tc.grantBase
  info : u.tc.info = f.tc.info
  self : u.tc.self = f.tc.self
  ng : u.tc.nonGranting = f.tc.nonGranting
  iterating : u.tc.iterating = it
  iteration : u.tc.iteration = f.tc.iteration
  requested : u.tc.requested = asked f.tc t it
  value : floorOf f.tc it ≤ u.tc.value
  message : floorOf f.tc it ≤ u.tc.message

/-- what an event does to a waiting federate -/
inductive Answer (f : Fed) (t : Time) (it : IterReq) (u : Fed) (r : Fed × MPR) : Prop
  | wait (h : Pending f t it r.1) (hr : returned r = none)
  | halt (hr : r.2 = .halted) (hs : r.1.state = .executing) (hm : r.1.mode = true) (hg : r.1.tc.granted = maxVal)
      (hi : r.1.tc.info = f.tc.info)
  | grant (g : TC) (hg : g.core = u.tc.core) (hs : r.1.state = .executing) (hm : r.1.mode = true)
      (hp : (r.2 = .nextStep ∧ it ≠ .forceIteration) ∨ (r.2 = .iterating ∧ (it = .forceIteration ∨ it = .iterateIfNeeded)))
      (hb : ¬ (g.block ≤ g.nextExec ∧ g.block < cTerm))
      (ht : ¬ (cTerm ≤ g.nextExec ∧ cTerm ≤ g.updateTimeFactors.allow))
      (ha : g.nextExec ≤ g.updateTimeFactors.allow)
      (hgr : r.1.tc.granted = if it = .forceIteration then f.tc.granted else g.nextExec)
      (hbase : r.1.tc.grantBase = if it = .forceIteration then f.tc.grantBase else g.nextExec)
      (hi : r.1.tc.info = f.tc.info) (hn : r.1.tc.iteration = if r.2 = .nextStep then 0 else f.tc.iteration + 1)
  | left (h : left r.1.state)

theorem Pending.congr {f : Fed} {t : Time} {it : IterReq} {u v : Fed} (h : Pending f t it u)
    (hs : v.state = .executing) (hm : v.mode = false) (hc : v.tc.core = u.tc.core) : Pending f t it v :=
  ⟨hs, hm, (congrArg Core.granted hc).trans h.granted, (congrArg Core.grantBase hc).trans h.base,
   (congrArg Core.info hc).trans h.info, (congrArg Core.self hc).trans h.self, (congrArg Core.nonGranting hc).trans h.ng,
   (congrArg Core.iterating hc).trans h.iterating, (congrArg Core.iteration hc).trans h.iteration,
   (congrArg Core.requested hc).trans h.requested,
   by rw [show v.tc.value = u.tc.value from congrArg Core.value hc]; exact h.value,
   by rw [show v.tc.message = u.tc.message from congrArg Core.message hc]; exact h.message⟩

theorem returned_none {r : Fed × MPR} (h : r.2 ≠ .nextStep) (h' : r.2 ≠ .iterating) (h'' : r.2 ≠ .halted) :
    returned r = none := by
  unfold returned
  split
  · split <;> simp_all
  · rfl

theorem pending_process {f : Fed} {t : Time} {it : IterReq} {u : Fed} (h : Pending f t it u) (hi : Inv u) (cmd : Msg)
    (ho : ¬ ownExec u cmd) (hf : cmd.action ≠ .forceTimeGrant) : Answer f t it u (u.process cmd) := by
  have e := process_effect u cmd h.state ho hi.self
  generalize u.process cmd = r at e
  cases e with
  | quiet h1 hm hc _ hp =>
    refine .wait (h.congr h1 (hm.trans h.mode) hc) ?_
    apply returned_none <;> intro h' <;> rcases hp with k | k | k <;> rw [h'] at k <;> cases k
  | attempt g trig hm hg _ h1 ht hp hm' =>
    have hgr : g.granted = f.tc.granted := (congrArg Core.granted hg).trans h.granted
    have hgb : g.grantBase = f.tc.grantBase := (congrArg Core.grantBase hg).trans h.base
    have hgi : g.info = f.tc.info := (congrArg Core.info hg).trans h.info
    have hit : g.iterating = it := (congrArg Core.iterating hg).trans h.iterating
    have hin : g.iteration = f.tc.iteration := (congrArg Core.iteration hg).trans h.iteration
    rw [← hp] at hm'
    rcases checkTimeGrant_outcome g trig with ⟨k1, _, _, k4⟩ | ⟨k1, k2⟩ | ⟨k1, k2, kb, kt, ka, k4⟩ | ⟨k1, k2, kb, kt, ka, k4⟩
    · rw [← ht] at k4
      rw [← hp] at k1
      exact .halt k1 h1 (by rw [hm', k1]; rfl) (congrArg Core.granted k4) ((congrArg Core.info k4).trans hgi)
    · rw [← ht] at k2
      rw [← hp] at k1
      refine .wait (h.congr h1 (by rw [hm', k1]; rfl) (k2.trans hg)) ?_
      apply returned_none <;> rw [k1] <;> decide
    · rw [← ht] at k4
      rw [← hp] at k1
      rw [hit] at k2
      exact .grant g hg h1 (by rw [hm', k1]; rfl) (Or.inl ⟨k1, k2⟩) kb kt ka
        (by rw [if_neg k2]; exact congrArg Core.granted k4) (by rw [if_neg k2]; exact congrArg Core.grantBase k4)
        ((congrArg Core.info k4).trans hgi) (by rw [if_pos k1]; exact congrArg Core.iteration k4)
    · rw [← ht] at k4
      rw [← hp] at k1
      rw [hit] at k2
      have hne : r.2 ≠ .nextStep := by rw [k1]; decide
      rw [hit] at k4
      split at k4
      · rename_i hfi
        exact .grant g hg h1 (by rw [hm', k1]; rfl) (Or.inr ⟨k1, k2⟩) kb kt ka
          (by rw [if_pos hfi]; exact (congrArg Core.granted k4).trans hgr)
          (by rw [if_pos hfi]; exact (congrArg Core.grantBase k4).trans hgb)
          ((congrArg Core.info k4).trans hgi) (by rw [if_neg hne, ← hin]; exact congrArg Core.iteration k4)
      · rename_i hfi
        exact .grant g hg h1 (by rw [hm', k1]; rfl) (Or.inr ⟨k1, k2⟩) kb kt ka
          (by rw [if_neg hfi]; exact congrArg Core.granted k4)
          (by rw [if_neg hfi]; exact congrArg Core.grantBase k4)
          ((congrArg Core.info k4).trans hgi) (by rw [if_neg hne, ← hin]; exact congrArg Core.iteration k4)
  | forced ha => exact absurd ha hf
  | exit h1 => exact .left h1

theorem pending_start (f : Fed) (t : Time) (it : IterReq) (nv nm : Time) (hs : f.state = .executing) :
    Pending f t it { f with tc := f.tc.timeRequest t it nv nm, mode := false } := by
  obtain ⟨h1, h2, h3, h4, h5, h6, h7, h8⟩ := timeRequest_fields f.tc t it nv nm
  have hc := (timeRequest_core f.tc t it nv nm).1
  have hv : (f.tc.timeRequest t it nv nm).value = (f.tc.prepRequest t it nv nm).value := congrArg Core.value hc
  have hm : (f.tc.timeRequest t it nv nm).message = (f.tc.prepRequest t it nv nm).message := congrArg Core.message hc
  have hfl : floorOf f.tc it ≤ (f.tc.prepRequest t it nv nm).value ∧ floorOf f.tc it ≤ (f.tc.prepRequest t it nv nm).message := by
    unfold floorOf prepRequest generateAllowedTime
    simp only
    by_cases h : it = .noIterations
    · have := allowedTime_ge f.tc.info f.tc.grantBase (if t < f.tc.getNextPossibleTime then f.tc.getNextPossibleTime else t)
      simp only [h, ne_eq, not_true, if_false, if_true]
      repeat' split
      all_goals (constructor <;> split at this <;> omega)
    · simp only [h, ne_eq, not_false_eq_true, if_true, if_false]
      constructor <;> split <;> omega
  refine ⟨hs, rfl, h1, h2, h3, h4, h7, h5, h6, ?_, ?_, ?_⟩
  · show (f.tc.timeRequest t it nv nm).requested = _
    rw [h8]
    unfold asked
    by_cases h : it = .noIterations
    · simp only [h, ne_eq, not_true, if_false, if_true]
      split <;> omega
    · simp only [h, ne_eq, not_false_eq_true, if_true, if_false]
      by_cases h' : it = .forceIteration
      · simp [h']
      · simp only [h', or_false, if_false]
        split <;> omega
  · show _ ≤ (f.tc.timeRequest t it nv nm).value
    rw [hv]; exact hfl.1
  · show _ ≤ (f.tc.timeRequest t it nv nm).message
    rw [hm]; exact hfl.2

theorem updateValueTime_floor (tc : TC) (t : Time) (s : Bool) :
    ((tc.updateValueTime t s).value = tc.value ∨ floorOf tc tc.iterating ≤ (tc.updateValueTime t s).value) ∧
    (tc.updateValueTime t s).message = tc.message := by
  unfold updateValueTime
  split
  · split <;> exact ⟨Or.inl rfl, rfl⟩
  · have key : ∀ u : TC, u.core.value = tc.value → u.message = tc.message → u.iterating = tc.iterating →
        u.granted = tc.granted → u.getNextPossibleTime = tc.getNextPossibleTime → ∀ w : TC, w = 
        (if t < u.value then
          let ptime := u.value
          let np := u.getNextPossibleTime
          let v := if u.iterating ≠ .noIterations then (if t ≤ u.granted then u.granted else t)
            else (if t ≤ np then np else t)
          let tc := { u with value := v }
          if v < ptime ∧ !tc.disconnected then
            let r := tc.updateNextExecutionTime
            if r.2 && s then r.1.sendTimeRequest invalidFed else r.1
          else tc
        else u) → (w.value = tc.value ∨ floorOf tc tc.iterating ≤ w.value) ∧ w.message = tc.message := by
      intro u h1 h2 h3 h4 h5 w hw
      subst hw
      split
      · simp only
        have hfl : floorOf tc tc.iterating ≤ (if u.iterating ≠ .noIterations then (if t ≤ u.granted then u.granted else t)
            else (if t ≤ u.getNextPossibleTime then u.getNextPossibleTime else t)) := by
          unfold floorOf
          rw [h3, h4, h5]
          by_cases h : tc.iterating = .noIterations
          · simp only [h, ne_eq, not_true, if_false, if_true]; split <;> omega
          · simp only [h, ne_eq, not_false_eq_true, if_true, if_false]; split <;> omega
        generalize (if u.iterating ≠ .noIterations then (if t ≤ u.granted then u.granted else t) else _) = v at hfl
        split
        · split
          · have hc := (core_sendTimeRequest ({ u with value := v } : TC).updateNextExecutionTime.1 invalidFed).1
            refine ⟨Or.inr ?_, (congrArg Core.message hc).trans h2⟩
            rw [show (({ u with value := v } : TC).updateNextExecutionTime.1.sendTimeRequest invalidFed).value = v from
              congrArg Core.value hc]
            exact hfl
          · exact ⟨Or.inr hfl, h2⟩
        · exact ⟨Or.inr hfl, h2⟩
      · exact ⟨Or.inl h1, h2⟩
    refine key (if t ≤ tc.granted then { tc with hasIterationData := true } else tc) ?_ ?_ ?_ ?_ ?_ _ rfl
    all_goals split <;> rfl

theorem updateMessageTime_floor (tc : TC) (t : Time) (s : Bool) :
    ((tc.updateMessageTime t s).message = tc.message ∨ floorOf tc tc.iterating ≤ (tc.updateMessageTime t s).message) ∧
    (tc.updateMessageTime t s).value = tc.value := by
  unfold updateMessageTime
  split
  · split <;> exact ⟨Or.inl rfl, rfl⟩
  · have key : ∀ u : TC, u.core.message = tc.message → u.value = tc.value → u.iterating = tc.iterating →
        u.granted = tc.granted → u.getNextPossibleTime = tc.getNextPossibleTime → ∀ w : TC, w = 
        (if t < u.message then
          let ptime := u.message
          let np := u.getNextPossibleTime
          let v := if u.iterating ≠ .noIterations then (if t ≤ u.granted then u.granted else t)
            else (if t ≤ np then np else t)
          let tc := { u with message := v }
          if v < ptime ∧ !tc.disconnected then
            let r := tc.updateNextExecutionTime
            if r.2 && s then r.1.sendTimeRequest invalidFed else r.1
          else tc
        else u) → (w.message = tc.message ∨ floorOf tc tc.iterating ≤ w.message) ∧ w.value = tc.value := by
      intro u h1 h2 h3 h4 h5 w hw
      subst hw
      split
      · simp only
        have hfl : floorOf tc tc.iterating ≤ (if u.iterating ≠ .noIterations then (if t ≤ u.granted then u.granted else t)
            else (if t ≤ u.getNextPossibleTime then u.getNextPossibleTime else t)) := by
          unfold floorOf
          rw [h3, h4, h5]
          by_cases h : tc.iterating = .noIterations
          · simp only [h, ne_eq, not_true, if_false, if_true]; split <;> omega
          · simp only [h, ne_eq, not_false_eq_true, if_true, if_false]; split <;> omega
        generalize (if u.iterating ≠ .noIterations then (if t ≤ u.granted then u.granted else t) else _) = v at hfl
        split
        · split
          · have hc := (core_sendTimeRequest ({ u with message := v } : TC).updateNextExecutionTime.1 invalidFed).1
            refine ⟨Or.inr ?_, (congrArg Core.value hc).trans h2⟩
            rw [show (({ u with message := v } : TC).updateNextExecutionTime.1.sendTimeRequest invalidFed).message = v from
              congrArg Core.message hc]
            exact hfl
          · exact ⟨Or.inr hfl, h2⟩
        · exact ⟨Or.inr hfl, h2⟩
      · exact ⟨Or.inl h1, h2⟩
    refine key (if t ≤ tc.granted then { tc with hasIterationData := true } else tc) ?_ ?_ ?_ ?_ ?_ _ rfl
    all_goals split <;> rfl

theorem Pending.floor {f : Fed} {t : Time} {it : IterReq} {u : Fed} (h : Pending f t it u) :
    floorOf u.tc u.tc.iterating = floorOf f.tc it := by
  unfold floorOf getNextPossibleTime
  rw [h.iterating, h.granted, h.base, h.info]

theorem Pending.data {f : Fed} {t : Time} {it : IterReq} {u v : Fed} (h : Pending f t it u)
    (hs : v.state = u.state) (hm : v.mode = u.mode) (hd : DataOnly u.tc v.tc)
    (hv : floorOf f.tc it ≤ v.tc.value) (hms : floorOf f.tc it ≤ v.tc.message) : Pending f t it v := by
  obtain ⟨a, b, c, d, e, g, k⟩ := hd.fields
  have hng : v.tc.nonGranting = u.tc.nonGranting := by
    obtain ⟨v', m, i, d, e⟩ := hd.h; exact congrArg Core.nonGranting e
  exact ⟨hs.trans h.state, hm.trans h.mode, a.trans h.granted, b.trans h.base, c.trans h.info, d.trans h.self,
    hng.trans h.ng, g.trans h.iterating, k.trans h.iteration, e.trans h.requested, hv, hms⟩

theorem pending_value {f : Fed} {t : Time} {it : IterReq} {u : Fed} (h : Pending f t it u) (cmd : Msg)
    (hc : cmd.action = .pub) : Pending f t it (u.valueArrives cmd) := by
  have hd := dataOnly_valueArrives u cmd hc
  have hfl := updateValueTime_floor u.tc cmd.actionTime (!u.mode)
  rw [h.floor] at hfl
  have hcore : (u.valueArrives cmd).tc.core = (u.tc.updateValueTime cmd.actionTime (!u.mode)).core := by
    unfold valueArrives
    simp only
    split
    · exact (core_processTimeMessage _ _ (by rw [hc]; decide)).1
    · rfl
  have e1 : (u.valueArrives cmd).tc.value = (u.tc.updateValueTime cmd.actionTime (!u.mode)).value :=
    congrArg Core.value hcore
  have e2 : (u.valueArrives cmd).tc.message = (u.tc.updateValueTime cmd.actionTime (!u.mode)).message :=
    congrArg Core.message hcore
  refine h.data rfl rfl hd ?_ ?_
  · rw [e1]
    rcases hfl.1 with k | k
    · rw [k]; exact h.value
    · exact k
  · rw [e2, hfl.2]; exact h.message

theorem pending_message {f : Fed} {t : Time} {it : IterReq} {u : Fed} (h : Pending f t it u) (cmd : Msg)
    (hc : cmd.action = .sendMessage) : Pending f t it (u.messageArrives cmd) := by
  have hd := dataOnly_messageArrives u cmd hc
  have hfl := updateMessageTime_floor u.tc cmd.actionTime (!u.mode)
  rw [h.floor] at hfl
  have hcore : (u.messageArrives cmd).tc.core = (u.tc.updateMessageTime cmd.actionTime (!u.mode)).core := by
    unfold messageArrives
    simp only
    split
    · exact (core_processTimeMessage _ _ (by rw [hc]; decide)).1
    · rfl
  have e1 : (u.messageArrives cmd).tc.value = (u.tc.updateMessageTime cmd.actionTime (!u.mode)).value :=
    congrArg Core.value hcore
  have e2 : (u.messageArrives cmd).tc.message = (u.tc.updateMessageTime cmd.actionTime (!u.mode)).message :=
    congrArg Core.message hcore
  refine h.data rfl rfl hd ?_ ?_
  · rw [e1, hfl.2]; exact h.value
  · rw [e2]
    rcases hfl.1 with k | k
    · rw [k]; exact h.message
    · exact k

end Fed

/-- an event that can happen while a request is under way: a command other than a forced grant, or data -/
def FedOp.waiting : FedOp → Prop
  | .msg cmd => cmd.action ≠ .forceTimeGrant
  | .value _ => True
  | .message _ => True
  | _ => False

namespace Fed
open TC

theorem pending_step {limit : Int} {f : Fed} {t : Time} {it : IterReq} {u : Fed} (h : Pending f t it u) (hi : Inv u)
    (o : FedOp) (ho : o.sane u.tc.self) (hw : o.waiting) : Answer f t it u (u.step limit o) := by
  cases o with
  | msg cmd =>
    exact pending_process h hi cmd (fun k => ho.2 ⟨Or.inl k.1, k.2.1, k.2.2⟩) hw
  | value cmd =>
    exact .wait (pending_value h cmd ho.1) (returned_none (by simp [step]) (by simp [step]) (by simp [step]))
  | message cmd =>
    exact .wait (pending_message h cmd ho.1) (returned_none (by simp [step]) (by simp [step]) (by simp [step]))
  | timeRequest => exact hw.elim
  | execRequest => exact hw.elim
  | setTime => exact hw.elim
  | setFlag => exact hw.elim
  | setMaxIterations => exact hw.elim

/-- nothing is handed out while no request is under way -/
theorem grants_idle (limit : Int) (u : Fed) (ops : List FedOp) (hi : Inv u) (hs : u.state ≠ .executing ∨ u.mode = true)
    (hr : FedState.executing.rank ≤ u.state.rank)
    (ho : ∀ o ∈ ops, o.sane u.tc.self ∧ o.waiting) : u.grants limit ops = [] := by
  induction ops generalizing u with
  | nil => rfl
  | cons o os ih =>
    have hok := step_ok limit u o hi (ho o (by simp)).1
    have hnone : returned (u.step limit o) = none ∧
        ((u.step limit o).1.state ≠ .executing ∨ (u.step limit o).1.mode = true) := by
      by_cases he : u.state = .executing
      · have hm : u.mode = true := by rcases hs with h | h; exact absurd he h; exact h
        cases o with
        | msg cmd =>
          obtain ⟨hsn, hw⟩ := ho _ (List.mem_cons_self ..)
          have e := process_effect u cmd he (fun k => hsn.2 ⟨Or.inl k.1, k.2.1, k.2.2⟩) hi.self
          show returned (u.process cmd) = none ∧ ((u.process cmd).1.state ≠ .executing ∨ (u.process cmd).1.mode = true)
          generalize u.process cmd = r at e
          cases e with
          | quiet h1 hm' _ _ hp =>
            refine ⟨?_, Or.inr (hm'.trans hm)⟩
            apply returned_none <;> intro h' <;> rcases hp with k | k | k <;> rw [h'] at k <;> cases k
          | attempt _ _ h => rw [hm] at h; cases h
          | forced h => exact absurd h hw
          | exit h1 =>
            have hne : r.1.state ≠ .executing := by rcases h1 with h | h | h <;> rw [h] <;> decide
            exact ⟨by unfold returned; rw [if_neg hne], Or.inl hne⟩
        | value cmd => exact ⟨returned_none (by simp [step]) (by simp [step]) (by simp [step]), Or.inr hm⟩
        | message cmd => exact ⟨returned_none (by simp [step]) (by simp [step]) (by simp [step]), Or.inr hm⟩
        | timeRequest => exact (ho _ (List.mem_cons_self ..)).2.elim
        | execRequest => exact (ho _ (List.mem_cons_self ..)).2.elim
        | setTime => exact (ho _ (List.mem_cons_self ..)).2.elim
        | setFlag => exact (ho _ (List.mem_cons_self ..)).2.elim
        | setMaxIterations => exact (ho _ (List.mem_cons_self ..)).2.elim
      · have hne : (u.step limit o).1.state ≠ .executing := by
          intro h
          have := hok.enter he h
          rw [this] at hr
          exact absurd hr (by decide)
        exact ⟨by unfold returned; rw [if_neg hne], Or.inl hne⟩
    unfold grants
    simp only
    rw [hnone.1, ih _ hok.inv hnone.2 (Nat.le_trans hr hok.rank)
      (by intro o' h'; rw [hok.self]; exact ho o' (by simp [h']))]
    rfl

/-- the facts behind an answer `T` to the request `(t, it)` made in state `f` -/
def AnswerFacts (f : Fed) (t : Time) (it : IterReq) (T : Time) : Prop :=
  ∃ (w : Fed) (g : TC), Pending f t it w ∧ Inv w ∧ g.core = w.tc.core ∧
    ¬ (g.block ≤ g.nextExec ∧ g.block < cTerm) ∧ g.nextExec < cTerm ∧ g.nextExec ≤ g.updateTimeFactors.allow ∧
    T = if it = .forceIteration then f.tc.granted else g.nextExec

/-- a request is answered at most once, by a halt or by a justified grant -/
theorem grants_pending (limit : Int) (f : Fed) (t : Time) (it : IterReq) (u : Fed) (ops : List FedOp)
    (h : Pending f t it u) (hi : Inv u) (ho : ∀ o ∈ ops, o.sane u.tc.self ∧ o.waiting) :
    u.grants limit ops = [] ∨ ∃ T, u.grants limit ops = [T] ∧ (T = maxVal ∨ AnswerFacts f t it T) := by
  induction ops generalizing u with
  | nil => exact Or.inl rfl
  | cons o os ih =>
    have hok := step_ok limit u o hi (ho o (by simp)).1
    have ha := pending_step (limit := limit) h hi o (ho o (by simp)).1 (ho o (by simp)).2
    have hrest : ∀ o' ∈ os, o'.sane (u.step limit o).1.tc.self ∧ o'.waiting := by
      intro o' h'; rw [hok.self]; exact ho o' (by simp [h'])
    have hr : FedState.executing.rank ≤ (u.step limit o).1.state.rank := by
      have := hok.rank; rw [h.state] at this; exact this
    unfold grants
    simp only
    cases ha with
    | wait hp hr => rw [hr]; exact ih _ hp hok.inv hrest
    | halt h1 h2 h3 =>
      rw [grants_idle limit _ os hok.inv (Or.inr h3) hr hrest]
      right
      refine ⟨maxVal, ?_, Or.inl rfl⟩
      unfold returned; rw [if_pos h2, h1]; rfl
    | grant g hg h2 h3 hp hb ht ha hgr =>
      rw [grants_idle limit _ os hok.inv (Or.inr h3) hr hrest]
      right
      refine ⟨(u.step limit o).1.tc.granted, ?_, Or.inr ⟨u, g, h, hi, hg, hb, by omega, ha, hgr⟩⟩
      unfold returned
      rw [if_pos h2]
      rcases hp with ⟨hp, _⟩ | ⟨hp, _⟩ <;> rw [hp] <;> rfl
    | left h1 =>
      have hne : (u.step limit o).1.state ≠ .executing := by rcases h1 with h | h | h <;> rw [h] <;> decide
      rw [grants_idle limit _ os hok.inv (Or.inl hne) hr hrest]
      left
      unfold returned; rw [if_neg hne]; rfl

theorem request_answer {f : Fed} {t : Time} {it : IterReq} {nv nm : Time} (hi : Inv f) (hs : f.state = .executing)
    (_ht : t ≤ maxVal) :
    ∃ u, Pending f t it u ∧ Inv u ∧ u.tc.self = f.tc.self ∧ Answer f t it u (f.request t it nv nm) := by
  have hp := pending_start f t it nv nm hs
  have hinv : Inv { f with tc := f.tc.timeRequest t it nv nm, mode := false } := by
    have hb : ({ f with tc := f.tc.timeRequest t it nv nm, mode := false } : Fed).tc.info = f.tc.info := hp.info
    refine ⟨⟨by rw [hp.base, hp.granted]; exact hi.good.base, by rw [hp.granted]; exact hi.good.range,
      by rw [hb]; exact hi.good.delta, by rw [hb]; exact hi.good.offset⟩, by rw [hp.self]; exact hi.self, fun _ _ => ?_⟩
    rw [hp.granted, hp.requested]
    have := nextPossible_ge' f.tc hi.good
    unfold asked
    repeat' split
    all_goals omega
  exact ⟨_, hp, hinv, hp.self, pending_process hp hinv _ (fun k => nomatch k.1) (fun k => nomatch k)⟩

/-- a request with everything that happens until the next API call: answered at most once -/
theorem grants_request (limit : Int) (f : Fed) (t : Time) (it : IterReq) (nv nm : Time) (ops : List FedOp)
    (hi : Inv f) (hs : f.state = .executing) (hm : f.mode = true) (ht : t ≤ maxVal)
    (ho : ∀ o ∈ ops, o.sane f.tc.self ∧ o.waiting) :
    f.grants limit (.timeRequest t it nv nm :: ops) = [] ∨
    ∃ T, f.grants limit (.timeRequest t it nv nm :: ops) = [T] ∧
      (T = maxVal ∨ AnswerFacts f t (f.limitIter limit it) T) := by
  have hok := request_ok f hi hs t (f.limitIter limit it) nv nm ht
  obtain ⟨u, hp, hiu, hsu, ha⟩ := request_answer (it := f.limitIter limit it) (nv := nv) (nm := nm) hi hs ht
  have hstep : f.step limit (.timeRequest t it nv nm) = f.request t (f.limitIter limit it) nv nm := by
    simp only [step]; rw [if_pos ⟨hs, hm⟩]
  have hrest : ∀ o' ∈ ops, o'.sane (f.request t (f.limitIter limit it) nv nm).1.tc.self ∧ o'.waiting := by
    intro o' h'; rw [hok.self]; exact ho o' h'
  have hr : FedState.executing.rank ≤ (f.request t (f.limitIter limit it) nv nm).1.state.rank := by
    have := hok.rank; rw [hs] at this; exact this
  unfold grants
  simp only [hstep]
  generalize f.request t (f.limitIter limit it) nv nm = r at hok ha hrest hr
  cases ha with
  | wait hp' hr => rw [hr]; exact grants_pending limit f t _ _ ops hp' hok.inv hrest
  | halt h1 h2 h3 =>
    rw [grants_idle limit _ ops hok.inv (Or.inr h3) hr hrest]
    right
    refine ⟨maxVal, ?_, Or.inl rfl⟩
    unfold returned; rw [if_pos h2, h1]; rfl
  | grant g hg h2 h3 hp' hb ht ha hgr =>
    rw [grants_idle limit _ ops hok.inv (Or.inr h3) hr hrest]
    right
    refine ⟨r.1.tc.granted, ?_, Or.inr ⟨u, g, hp, hiu, hg, hb, by omega, ha, hgr⟩⟩
    unfold returned
    rw [if_pos h2]
    rcases hp' with ⟨hp', _⟩ | ⟨hp', _⟩ <;> rw [hp'] <;> rfl
  | left h1 =>
    have hne : r.1.state ≠ .executing := by rcases h1 with h | h | h <;> rw [h] <;> decide
    rw [grants_idle limit _ ops hok.inv (Or.inl hne) hr hrest]
    left
    unfold returned; rw [if_neg hne]; rfl

end Fed
end Verif
