import Verif.Lemmas.FedStep
/-! Life-cycle order and what processing does outside executing mode. -/
namespace Verif

/-- position of a state in the life cycle -/
def FedState.rank : FedState → Nat
  | .created => 0
  | .initializing => 1
  | .executing => 2
  | .errored => 3
  | .terminating => 4
  | .finished => 5

/-- sanity of the granted time: equal to the grant base, a 64-bit value; positive step; 64-bit offset -/
structure GoodTime (a : TC) : Prop where
  base : a.grantBase = a.granted
  range : a.granted ≤ maxVal
  delta : 1 ≤ a.info.timeDelta ∧ 0 ≤ a.info.inputDelay ∧ 0 ≤ a.info.outputDelay ∧ 0 ≤ a.info.period
  offset : 0 ≤ a.info.offset ∧ a.info.offset ≤ maxVal

/-- identity, options and the equality of grant base and granted time survive -/
structure Keep (a b : TC) : Prop where
  self : b.self = a.self
  info : b.info = a.info
  base : GoodTime a → GoodTime b

theorem Keep.refl (a : TC) : Keep a a := ⟨rfl, rfl, id⟩
theorem Keep.trans {a b c : TC} (h : Keep a b) (k : Keep b c) : Keep a c :=
  ⟨k.self.trans h.self, k.info.trans h.info, fun x => k.base (h.base x)⟩
theorem Keep.of_core {a b : TC} (h : b.core = a.core) : Keep a b := by
  have hg : b.granted = a.granted := congrArg Core.granted h
  have hb : b.grantBase = a.grantBase := congrArg Core.grantBase h
  have hi : b.info = a.info := congrArg Core.info h
  exact ⟨congrArg Core.self h, hi, fun x => ⟨by rw [hg, hb]; exact x.base, by rw [hg]; exact x.range,
    by rw [hi]; exact x.delta, by rw [hi]; exact x.offset⟩⟩
theorem Keep.of_core_both {a b : TC} (t : Time) (ht : t ≤ maxVal)
    (h : b.core = { a.core with granted := t, grantBase := t }) : Keep a b := by
  have hg : b.granted = t := congrArg Core.granted h
  have hb : b.grantBase = t := congrArg Core.grantBase h
  have hi : b.info = a.info := congrArg Core.info h
  exact ⟨congrArg Core.self h, hi, fun x => ⟨by rw [hg, hb], by rw [hg]; exact ht,
    by rw [hi]; exact x.delta, by rw [hi]; exact x.offset⟩⟩

namespace TC

theorem keep_processTimeMessage (tc : TC) (cmd : Msg) (hc : cmd.actionTime ≤ maxVal) :
    Keep tc (tc.processTimeMessage cmd).1 := by
  by_cases h : cmd.action = .forceTimeGrant
  · unfold processTimeMessage
    rw [h]
    simp only
    split
    · exact ⟨rfl, rfl, fun x => ⟨rfl, hc, x.delta, x.offset⟩⟩
    · exact Keep.refl _
  · exact Keep.of_core (core_processTimeMessage _ _ h).1

theorem keep_disconnect (tc : TC) : Keep tc tc.disconnect := Keep.of_core (core_disconnect _).1

theorem keep_localError (tc : TC) : Keep tc tc.localError := by
  rcases Fed.core_localError tc with h | h
  · exact Keep.of_core h
  · exact Keep.of_core_both maxVal (Int.le_refl _) h

theorem keep_sendUpdatedExecRequest (tc : TC) (a b : FedId) (c : Int) : Keep tc (tc.sendUpdatedExecRequest a b c) := by
  unfold sendUpdatedExecRequest
  simp only
  split <;> exact ⟨rfl, rfl, fun x => ⟨x.base, x.range, x.delta, x.offset⟩⟩

theorem keep_replyExec (tc : TC) (a b : FedId) : Keep tc (tc.replyExec a b) := by
  unfold replyExec
  split
  · exact ⟨rfl, rfl, fun x => ⟨x.base, x.range, x.delta, x.offset⟩⟩
  · split
    · exact keep_sendUpdatedExecRequest _ _ _ _
    · exact Keep.refl _

theorem keep_execNotReady (tc : TC) (a : FedId) : Keep tc (tc.execNotReady a) := by
  unfold execNotReady
  split
  · split
    · simp only
      split
      · exact keep_sendUpdatedExecRequest _ _ _ _
      · exact keep_replyExec _ _ _
    · exact ⟨rfl, rfl, fun x => ⟨x.base, x.range, x.delta, x.offset⟩⟩
  · exact Keep.refl _

theorem keep_execDecision (tc : TC) (s : Bool) : Keep tc (tc.execDecision s).1 := by
  unfold execDecision
  split
  · split
    · exact Keep.refl _
    · exact ⟨rfl, rfl, fun x => ⟨x.base, x.range, x.delta, x.offset⟩⟩
  iterate 2
    · simp only
      split
      · exact Keep.refl _
      · split
        · exact Keep.refl _
        · split
          · exact Keep.refl _
          · exact Keep.of_core (core_applyRestriction _ _ _ _ _).1
  · exact Keep.refl _

theorem allowedTime_step_le (info : TCOptions) (gb t : Time) (hd : 1 ≤ info.timeDelta)
    (ho : info.offset ≤ maxVal) (hg : gb ≤ maxVal) (ht : t ≤ maxVal) :
    allowedTime info gb t - max info.period info.timeDelta ≤ maxVal := by
  unfold allowedTime ceilDiv
  simp only [timeEpsilon]
  split
  · split
    · omega
    · split
      · omega
      · have key : ∀ b : Int, b ≤ maxVal →
            (if t - b > info.period then b + -(-(t - b) / info.period) * info.period else b + info.period) -
              max info.period info.timeDelta ≤ maxVal := by
          intro b hb
          split
          · have h1 := Int.mul_ediv_add_emod (-(t - b)) info.period
            have h2 := Int.emod_lt_of_pos (-(t - b)) (show 0 < info.period by omega)
            have h3 : -(-(t - b) / info.period) * info.period = -(info.period * (-(t - b) / info.period)) := by
              rw [Int.neg_mul, Int.mul_comm]
            omega
          · omega
        split
        · exact key _ ho
        · exact key _ hg
  · omega

theorem keep_execGrant (tc : TC) (r : MPR) : Keep tc (tc.execGrant r) := by
  unfold execGrant
  split
  · split
    · exact ⟨rfl, rfl, fun x => ⟨rfl, (show (0:Int) ≤ maxVal by decide), x.delta, x.offset⟩⟩
    · exact ⟨rfl, rfl, fun x => ⟨x.base, x.range, x.delta, x.offset⟩⟩
    · exact Keep.refl _
  · split
    · simp only [transmit_frame]
      have h := core_updateTimeFactors tc
      refine ⟨congrArg Core.self h.1, congrArg Core.info h.1, fun x => ?_⟩
      have hi : tc.updateTimeFactors.info = tc.info := congrArg Core.info h.1
      have hg : tc.updateTimeFactors.grantBase = tc.grantBase := congrArg Core.grantBase h.1
      refine ⟨rfl, ?_, by rw [hi]; exact x.delta, by rw [hi]; exact x.offset⟩
      show (if _ then _ else _) ≤ _
      split
      · unfold generateAllowedTime
        rw [hi, hg]
        exact allowedTime_step_le _ _ _ x.delta.1 x.offset.2 (by rw [x.base]; exact x.range) (Deps.minTimeTotal_next_le _ _ _ _ _)
      · decide
    · exact Keep.refl _

theorem keep_execContinue (tc : TC) (a : FedId) (s : Bool) (r : MPR) : Keep tc (tc.execContinue a s r) := by
  unfold execContinue
  split
  · simp only
    split
    · exact keep_sendUpdatedExecRequest _ _ _ _
    · split
      · split
        · exact keep_sendUpdatedExecRequest _ _ _ _
        · exact keep_replyExec _ _ _
      · exact Keep.refl _
  · exact Keep.refl _

theorem keep_checkExecEntry (tc : TC) (a : FedId) : Keep tc (tc.checkExecEntry a).1 := by
  unfold checkExecEntry
  split
  · exact Keep.refl _
  · split
    · exact keep_execNotReady _ _
    · simp only
      refine Keep.trans (Keep.trans ?_ (keep_execGrant _ _)) (keep_execContinue _ _ _ _)
      exact Keep.trans (b := { tc with needSendAll := false }) (Keep.mk rfl rfl (fun x => ⟨x.base, x.range, x.delta, x.offset⟩)) (keep_execDecision _ _)

theorem keep_enteringExecMode (tc : TC) (m : IterReq) : Keep tc (tc.enteringExecMode m) := by
  unfold enteringExecMode
  repeat' split
  all_goals (try exact Keep.refl _)
  all_goals (try exact ⟨rfl, rfl, fun x => ⟨x.base, x.range, x.delta, x.offset⟩⟩)
  all_goals (simp only; repeat' split)
  all_goals exact ⟨rfl, rfl, fun x => ⟨x.base, x.range, x.delta, x.offset⟩⟩

end TC

namespace Fed
open TC

/-- what processing keeps, in any state but executing -/
structure Other (f : Fed) (r : Fed) : Prop where
  keep : Keep f.tc r.tc
  rank : f.state.rank ≤ r.state.rank
  enter : r.state = .executing → f.state = .initializing ∧ r.mode = true
  fromInit : f.state = .created → r.state ≠ .executing

theorem Other.same {f : Fed} (hs : f.state ≠ .executing) (t : TC) (h : Keep f.tc t) : Other f { f with tc := t } :=
  ⟨h, Nat.le_refl _, fun h => absurd h hs, fun _ => hs⟩

theorem rank_le_finished (s : FedState) : s.rank ≤ FedState.finished.rank := by cases s <;> decide

theorem execCheck_other (f : Fed) (cmd : Msg) (hs : f.state ≠ .executing) : Other f (f.execCheck cmd).1 := by
  unfold execCheck
  split
  · exact ⟨Keep.refl _, Nat.le_refl _, fun h => absurd h hs, fun _ => hs⟩
  · rename_i h
    have hi : f.state = .initializing := by
      rcases hx : f.state with _ | _ | _ | _ | _ | _ <;> simp [hx] at h ⊢
    split
    · simp only
      have hk := keep_checkExecEntry f.tc (if cmd.action = .execRequest then cmd.source else invalidFed)
      split
      · exact ⟨hk, Nat.le_refl _, fun h => absurd h hs, fun _ => hs⟩
      · exact ⟨hk, by rw [hi]; exact Nat.le_succ 1, fun _ => ⟨hi, rfl⟩, fun h => by rw [hi] at h; cases h⟩
      · refine Other.same hs _ ?_
        split
        · exact hk.trans (keep_sendUpdatedExecRequest _ _ _ _)
        · exact hk
      · exact ⟨hk, Nat.le_refl _, fun h => absurd h hs, fun _ => hs⟩
    · exact ⟨Keep.refl _, Nat.le_refl _, fun h => absurd h hs, fun _ => hs⟩

theorem tryGrant_keep (f : Fed) (t : FedId) : (f.tryGrant t).1.state = f.state := by
  unfold tryGrant; split <;> rfl

theorem coordinator_other (f : Fed) (cmd : Msg) (hs : f.state ≠ .executing)
    (hct : cmd.actionTime ≤ maxVal) : Other f (f.coordinator cmd).1 := by
  have hq : Other f f := ⟨Keep.refl _, Nat.le_refl _, fun h => absurd h hs, fun _ => hs⟩
  have hq' : Other f { f with tc := (f.tc.processTimeMessage cmd).1 } :=
    Other.same hs _ (keep_processTimeMessage _ _ hct)
  have hec : ∀ t, Keep f.tc t → Other f (({ f with tc := t } : Fed).execCheck cmd).1 := by
    intro t ht
    have := execCheck_other { f with tc := t } cmd hs
    exact ⟨ht.trans this.keep, this.rank, this.enter, this.fromInit⟩
  have hexit : ∀ (s : FedState) t, Keep f.tc t → f.state.rank ≤ s.rank → s ≠ .executing →
      Other f { f with tc := t, state := s } := fun s t ht hr hn =>
    ⟨ht, hr, fun h => absurd h hn, fun _ => hn⟩
  unfold coordinator
  simp only
  split
  · exact hq
  iterate 4
    · split
      · split
        · exact hq'
        · exact hq'
      · exact hq'
  · -- initGrant
    split
    · rename_i hc
      have hk : Keep f.tc (if cmd.interrupted || cmd.dynamicJoin then { f.tc with dynamicJoining := true } else f.tc) := by
        split
        · exact ⟨rfl, rfl, fun x => ⟨x.base, x.range, x.delta, x.offset⟩⟩
        · exact Keep.refl _
      split
      · exact ⟨hk, Nat.le_refl _, fun h => absurd h hs, fun _ => hs⟩
      · exact ⟨hk, (by rw [hc]; exact Nat.zero_le _), (fun h => nomatch h), (fun _ h => nomatch h)⟩
    · exact hq
  · split
    · exact ⟨keep_enteringExecMode _ _, Nat.le_refl _, fun h => absurd h hs, fun _ => hs⟩
    · split
      · exact hq'
      · exact hq'
      · exact hec _ (keep_processTimeMessage _ _ hct)
  · split
    · exact hq'
    · exact hq'
    · exact hec _ (keep_processTimeMessage _ _ hct)
  · exact hec _ (Keep.refl _)
  · exact hexit _ _ (Keep.refl _) (rank_le_finished _) (by decide)
  · exact hexit _ _ (keep_disconnect _) (rank_le_finished _) (by decide)
  · split
    · refine hexit _ _ ?_ (rank_le_finished _) (by decide)
      split
      · exact keep_disconnect _
      · exact Keep.refl _
    · exact hq
  · exact hq'
  · exact hq'
  iterate 2
    · split
      · split
        · rename_i h
          refine hexit _ _ (keep_disconnect _) ?_ (by decide)
          rcases hx : f.state with _ | _ | _ | _ | _ | _ <;> simp [hx] at h ⊢ <;> decide
        · exact hq
      · exact hq'
  iterate 3
    · split
      · exact hq'
      · exact hq'
      · rw [if_pos hs]; exact hq'
  iterate 2
    · split
      · exact hq'
      · exact hq'
      · rw [if_pos hs]; split <;> exact hq'
  · rw [if_pos hs]; split <;> exact hq
  · split
    · exact hq
    · exact ⟨keep_processTimeMessage _ _ hct, Nat.le_refl _, fun h => absurd h hs, fun _ => hs⟩
  iterate 3
    · split
      · split
        · rename_i h
          refine hexit _ _ ?_ ?_ (by decide)
          · split
            · exact keep_localError _
            · exact Keep.refl _
          · rcases hx : f.state with _ | _ | _ | _ | _ | _ <;> simp [hx] at h ⊢ <;> decide
        · exact hq
      · split
        · exact hq'
        · exact hq'
        · exact hq'
  iterate 6
    · split
      · exact Other.same hs _ (Keep.of_core (core_processDependencyUpdate _ _).1)
      · exact hq
  · exact hq

/-- the coordinator never changes the time carried by a command -/
theorem coordinator_time (f : Fed) (cmd : Msg) : (f.coordinator cmd).2.2.actionTime = cmd.actionTime := by
  unfold coordinator
  simp only
  repeat' split
  all_goals rfl

theorem execCheck_progress (f : Fed) (cmd : Msg) :
    (f.execCheck cmd).1.state = f.state ∨ (f.execCheck cmd).2 = .nextStep := by
  unfold execCheck
  split
  · exact Or.inl rfl
  · split
    · simp only
      generalize TC.checkExecEntry _ _ = r
      obtain ⟨a, b⟩ := r
      cases b
      case nextStep => exact Or.inr rfl
      all_goals exact Or.inl rfl
    · exact Or.inl rfl

/-- the coordinator changes the state silently only to leave the federation -/
theorem coordinator_progress (f : Fed) (cmd : Msg) :
    (f.coordinator cmd).1.state = f.state ∨ left (f.coordinator cmd).1.state ∨ (f.coordinator cmd).2.1 = .nextStep := by
  unfold coordinator
  simp only
  repeat' split
  all_goals (try exact Or.inl rfl)
  all_goals (try exact Or.inl (tryGrant_keep _ _))
  all_goals (try exact Or.inr (Or.inr rfl))
  all_goals (try exact Or.inr (Or.inl (Or.inl rfl)))
  all_goals (try exact Or.inr (Or.inl (Or.inr (Or.inl rfl))))
  all_goals (try exact Or.inr (Or.inl (Or.inr (Or.inr rfl))))
  all_goals (try exact (execCheck_progress _ _).imp id Or.inr)

theorem Other.trans {f g r : Fed} (h : Other f g) (k : Other g r) (hg : g.state = f.state ∨ left g.state) :
    Other f r := by
  refine ⟨h.keep.trans k.keep, Nat.le_trans h.rank k.rank, ?_, ?_⟩
  · intro hr
    obtain ⟨k1, k2⟩ := k.enter hr
    rcases hg with e | e | e | e
    · exact ⟨e ▸ k1, k2⟩
    all_goals (rw [k1] at e; cases e)
  · intro hf
    rcases hg with e | e | e | e
    · exact k.fromInit (e.trans hf)
    all_goals
      intro hr
      have := (k.enter hr).1
      rw [e] at this; cases this

theorem keep_enterInitialization (tc : TC) : Keep tc (enterInitialization tc) := by
  unfold enterInitialization; split
  · exact ⟨rfl, rfl, fun x => ⟨x.base, x.range, x.delta, x.offset⟩⟩
  · exact Keep.refl _

theorem stateChange_other (f g : Fed) (h : Other f g) : Other f (stateChange f.state g).1 := by
  unfold stateChange
  split
  · exact h
  · split
    · rename_i hi
      split
      · refine ⟨h.keep, ?_, (fun h => nomatch h), (fun _ h => nomatch h)⟩
        have := h.rank
        rw [hi] at this
        exact Nat.le_trans this (show FedState.initializing.rank ≤ FedState.errored.rank by decide)
      · exact ⟨h.keep.trans (keep_enterInitialization _), h.rank, h.enter, h.fromInit⟩
    · exact ⟨h.keep.trans (Keep.of_core (core_updateTimeFactors _).1), h.rank, h.enter, h.fromInit⟩
    · exact h

theorem stateChange_same (f g : Fed) (hg : g.state = f.state ∨ left g.state) :
    stateChange f.state g = (g, false) := by
  unfold stateChange
  split
  · rfl
  · rename_i hn
    rcases hg with e | e | e | e
    · exact absurd e.symm hn
    all_goals rw [e]

theorem secondSwitch_other (f : Fed) (cmd : Msg) (hs : f.state ≠ .executing) (hct : cmd.actionTime ≤ maxVal) (x : Fed × MPR)
    (hx : secondSwitch f cmd = some x) : Other f x.1 := by
  have hq : Other f f := ⟨Keep.refl _, Nat.le_refl _, fun h => absurd h hs, fun _ => hs⟩
  have hq' : Other f { f with tc := (f.tc.processTimeMessage cmd).1 } :=
    Other.same hs _ (keep_processTimeMessage _ _ hct)
  unfold secondSwitch at hx
  split at hx
  · split at hx
    · cases hx
    · cases hx; exact hq
  iterate 2
    · split at hx
      · split at hx
        · rename_i hd
          cases hx
          refine ⟨(keep_disconnect _).trans ⟨rfl, rfl, fun x => ⟨x.base, x.range, x.delta, x.offset⟩⟩, ?_, ?_, ?_⟩
          · show f.state.rank ≤ (if f.state ≠ .errored then FedState.terminating else f.state).rank
            split
            · rcases hx : f.state with _ | _ | _ | _ | _ | _ <;> simp [hx] at hd ⊢ <;> decide
            · exact Nat.le_refl _
          · intro h
            change (if f.state ≠ .errored then FedState.terminating else f.state) = _ at h
            split at h
            · cases h
            · exact absurd h hs
          · intro h0 h
            change (if f.state ≠ .errored then FedState.terminating else f.state) = _ at h
            split at h
            · cases h
            · exact absurd h hs
        · cases hx; exact hq
      · simp only at hx
        split at hx
        · cases hx; exact hq'
        · cases hx; exact hq'
        · cases hx; exact hq'
  · cases hx; exact hq

theorem processN_other (n : Nat) (f : Fed) (cmd : Msg) (hs : f.state ≠ .executing) (hct : cmd.actionTime ≤ maxVal) :
    Other f (processN n f cmd).1 := by
  induction n generalizing f cmd with
  | zero => exact ⟨Keep.refl _, Nat.le_refl _, fun h => absurd h hs, fun _ => hs⟩
  | succ n ih =>
    have ho := coordinator_other f cmd hs hct
    have hp := coordinator_progress f cmd
    have htm := coordinator_time f cmd
    unfold processN
    generalize f.coordinator cmd = r at ho hp htm
    obtain ⟨g, p, c⟩ := r
    simp only at ho hp htm ⊢
    rw [← htm] at hct
    by_cases hk : g.state = f.state ∨ left g.state
    · rw [stateChange_same f g hk]
      simp only [Bool.false_eq_true, if_false]
      have hg : g.state ≠ .executing := by
        rcases hk with e | e | e | e
        · rw [e]; exact hs
        all_goals rw [e]; decide
      split
      · split
        · rename_i x hx
          exact ho.trans (secondSwitch_other g c hg hct x hx) hk
        · exact ho.trans (ih g _ hg hct) hk
      · split
        · exact ⟨ho.keep.trans ⟨rfl, rfl, fun x => ⟨x.base, x.range, x.delta, x.offset⟩⟩, ho.rank, ho.enter, ho.fromInit⟩
        · exact ho.trans (ih g _ hg hct) hk
      · exact ho
    · have : p = .nextStep := by
        rcases hp with h | h | h
        · exact absurd (Or.inl h) hk
        · exact absurd (Or.inr h) hk
        · exact h
      subst this
      have := stateChange_other f g ho
      split
      · exact this
      · exact this

/-- **What one message can do** to a federate that is not executing. -/
theorem process_other (f : Fed) (cmd : Msg) (hs : f.state ≠ .executing)
    (hct : cmd.actionTime ≤ maxVal) : Other f (f.process cmd).1 :=
  processN_other 4 f cmd hs hct

end Fed
end Verif
