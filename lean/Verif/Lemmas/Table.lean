import Verif.Lemmas.Core
/-! How processing one command changes the dependency table. -/
namespace Verif
namespace Deps

/-- the effect of handing a timing command to the table -/
def tableMsg (ds : Deps) (cmd : Msg) : Deps :=
  match cmd.action with
  | .timeBlock | .timeUnblock | .timeBarrier | .timeBarrierClear | .forceTimeGrant => ds
  | .disconnect | .broadcastDisconnect | .disconnectCore | .disconnectFed | .disconnectBroker
  | .globalError | .localError => ((ds.removeDependent cmd.source).updateTime cmd).1
  | _ => (ds.updateTime cmd).1

/-- the command is a timing command of another federate that a federate `self` listens to -/
def hears (self : FedId) (cmd : Msg) : Bool :=
  match cmd.action with
  | .execRequest => !(decide (cmd.source = self) && cmd.indicator)
  | .execGrant | .timingInfo | .broadcastDisconnect | .disconnectBroker | .disconnectCore | .timeRequest
  | .timeGrant => true
  | .disconnectFed | .disconnect => decide (cmd.source ≠ self)
  | .error | .localError =>
    !(decide (cmd.source = self) || decide (cmd.source = parentBroker) || decide (cmd.source = rootBroker) ||
      decide (cmd.dest ≠ self))
  | _ => false

/-- the command adds or removes dependencies -/
def isDepUpdate (a : Cmd) : Bool :=
  a == .addDependency || a == .removeDependency || a == .addDependent || a == .removeDependent ||
  a == .addInterdependency || a == .removeInterdependency

/-- the changes that may follow while the same command is processed -/
inductive DR (self : FedId) (cmd : Msg) (ds : Deps) : Deps → Prop
  | refl : DR self cmd ds ds
  | again {es : Deps} (h : DR self cmd ds es)
      (ha : cmd.action = .disconnectFed ∨ cmd.action = .disconnect ∨ cmd.action = .requestCurrentTime) :
      DR self cmd ds (tableMsg es cmd)
  | bye {es : Deps} (h : DR self cmd ds es) (c : Msg) (hc : c.source = self)
      (ha : c.action = .disconnect ∨ c.action = .localError) : DR self cmd ds (tableMsg es c)
  | iterTime {es : Deps} (h : DR self cmd ds es) (t : Time) : DR self cmd ds (es.resetIterTime t)
  | iterExec {es : Deps} (h : DR self cmd ds es) : DR self cmd ds es.resetIterExec

theorem DR.trans {self : FedId} {cmd : Msg} {a b c : Deps} (h : DR self cmd a b) (k : DR self cmd b c) :
    DR self cmd a c := by
  induction k with
  | refl => exact h
  | again _ ha ih => exact .again ih ha
  | bye _ c hc ha ih => exact .bye ih c hc ha
  | iterTime _ t ih => exact .iterTime ih t
  | iterExec _ ih => exact .iterExec ih

/-- changes that need no command: valid after every command -/
inductive DS (self : FedId) (ds : Deps) : Deps → Prop
  | refl : DS self ds ds
  | bye {es : Deps} (h : DS self ds es) (c : Msg) (hc : c.source = self)
      (ha : c.action = .disconnect ∨ c.action = .localError) : DS self ds (tableMsg es c)
  | iterTime {es : Deps} (h : DS self ds es) (t : Time) : DS self ds (es.resetIterTime t)
  | iterExec {es : Deps} (h : DS self ds es) : DS self ds es.resetIterExec

theorem DS.dr {self : FedId} {a b : Deps} (h : DS self a b) (cmd : Msg) : DR self cmd a b := by
  induction h with
  | refl => exact .refl
  | bye _ c hc ha ih => exact .bye ih c hc ha
  | iterTime _ t ih => exact .iterTime ih t
  | iterExec _ ih => exact .iterExec ih

theorem DS.trans {self : FedId} {a b c : Deps} (h : DS self a b) (k : DS self b c) : DS self a c := by
  induction k with
  | refl => exact h
  | bye _ c hc ha ih => exact .bye ih c hc ha
  | iterTime _ t ih => exact .iterTime ih t
  | iterExec _ ih => exact .iterExec ih

end Deps

namespace TC
open Deps

/-- the table after the command itself has been applied -/
def tableAfter (tc : TC) (cmd : Msg) : Deps :=
  if isDepUpdate cmd.action ∧ cmd.dest = tc.self then (tc.processDependencyUpdate cmd).deps
  else if hears tc.self cmd then tableMsg tc.deps cmd else tc.deps

theorem deps_updateDeps (tc : TC) (cmd : Msg) : (tc.updateDeps cmd).1.deps = (tc.deps.updateTime cmd).1 := by
  unfold updateDeps
  simp only
  split
  · split <;> rfl
  · rfl

theorem deps_processTimeMessage (tc : TC) (cmd : Msg) (h : cmd.action ≠ .requestCurrentTime) :
    (tc.processTimeMessage cmd).1.deps = tableMsg tc.deps cmd := by
  unfold processTimeMessage
  split <;> rename_i ha
  case h_5 => unfold tableMsg; rw [ha]; split <;> rfl
  case h_13 => exact absurd ha h
  all_goals (try (unfold tableMsg; rw [ha]; rfl))
  all_goals (try (unfold tableMsg; rw [ha]; exact deps_updateDeps _ _))
  rw [deps_updateDeps]
  unfold tableMsg
  cases hc : cmd.action <;> simp_all

theorem deps_processTimeMessage' (tc : TC) (cmd : Msg) :
    (tc.processTimeMessage cmd).1.deps = tableMsg tc.deps cmd ∨
    (cmd.action = .requestCurrentTime ∧ (tc.processTimeMessage cmd).1.deps = tc.deps) := by
  by_cases h : cmd.action = .requestCurrentTime
  · have : tableMsg tc.deps cmd = (tc.deps.updateTime cmd).1 := by unfold tableMsg; rw [h]
    rw [this]
    unfold processTimeMessage
    rw [h]
    simp only
    split
    · exact Or.inr ⟨trivial, rfl⟩
    · left; split <;> rfl
  · exact Or.inl (deps_processTimeMessage tc cmd h)

theorem deps_sendTimeRequest (tc : TC) (g : FedId) : (tc.sendTimeRequest g).deps = tc.deps := by
  obtain ⟨o, l, u, h⟩ := sendTimeRequest_frame tc g; rw [h]

theorem deps_disconnect (tc : TC) : DS tc.self tc.deps tc.disconnect.deps := by
  unfold disconnect
  split
  · exact .refl
  · simp only
    split
    · exact .refl
    · split
      · split
        · rename_i d hd _ hs
          show DS _ _ (TC.processTimeMessage _ _).1.deps
          rw [deps_processTimeMessage _ _ (by simp)]
          exact .bye .refl _ rfl (Or.inl rfl)
        · exact .refl
      · exact .refl
    · split
      · show DS _ _ (TC.processTimeMessage _ _).1.deps
        rw [deps_processTimeMessage _ _ (by simp)]
        exact .bye .refl _ rfl (Or.inl rfl)
      · exact .refl

theorem deps_localError (tc : TC) : DS tc.self tc.deps tc.localError.deps := by
  unfold localError
  split
  · exact .refl
  · simp only
    split
    · exact .refl
    · split
      · split
        · show DS _ _ (TC.processTimeMessage _ _).1.deps
          rw [deps_processTimeMessage _ _ (by simp)]
          exact .bye .refl _ rfl (Or.inr rfl)
        · exact .refl
      · exact .refl
    · split
      · show DS _ _ (TC.processTimeMessage _ _).1.deps
        rw [deps_processTimeMessage _ _ (by simp)]
        exact .bye .refl _ rfl (Or.inr rfl)
      · exact .refl

theorem deps_updateTimeGrant (tc : TC) :
    tc.updateTimeGrant.deps = tc.deps ∨ (tc.iterating ≠ .noIterations ∧ ∃ t, tc.updateTimeGrant.deps = tc.deps.resetIterTime t) := by
  unfold updateTimeGrant
  simp only [transmit_frame]
  by_cases h : tc.iterating = .noIterations
  · left; simp [h]
  · right
    by_cases h2 : tc.iterating = .forceIteration
    · exact ⟨h, tc.exec, by simp [h2]⟩
    · exact ⟨h, tc.exec, by simp [h, h2]⟩

theorem ds_updateTimeGrant (tc : TC) : DS tc.self tc.deps tc.updateTimeGrant.deps := by
  rcases deps_updateTimeGrant tc with h | ⟨_, t, h⟩ <;> rw [h]
  · exact .refl
  · exact .iterTime .refl t

theorem ds_grant {s : FedId} {ds : Deps} (u : TC) (h : u.self = s) (h' : u.deps = ds) : DS s ds u.updateTimeGrant.deps := by
  subst h h'; exact ds_updateTimeGrant u

theorem deps_applyRestriction (tc : TC) (c : RestrictionCheck) (r s : Bool) (ok : MPR) :
    (tc.applyRestriction c r s ok).1.deps = tc.deps := by
  unfold applyRestriction
  repeat' split
  all_goals rfl

theorem deps_iterDecision (tc : TC) (s : Bool) : (tc.iterDecision s).1.deps = tc.deps := by
  unfold iterDecision
  repeat' split
  all_goals (try rfl)
  exact deps_applyRestriction _ _ _ _ _

theorem ds_finishGrant (tc : TC) (g : FedId) (s : Bool) (p : MPR) : DS tc.self tc.deps (tc.finishGrant g s p).1.deps := by
  unfold finishGrant
  split
  · show DS _ _ (ite _ _ _ : TC).deps
    split
    · split
      · rw [deps_sendTimeRequest]; exact .refl
      · split
        · rw [deps_sendTimeRequest]; exact .refl
        · exact .refl
    · exact .refl
  · exact ds_grant _ rfl rfl
  · split
    · exact ds_grant _ rfl rfl
    · exact ds_grant _ rfl rfl
  · exact .refl

theorem ds_grantNoIter (tc : TC) (g : FedId) (s : Bool) : DS tc.self tc.deps (tc.grantNoIter g s).1.deps := by
  unfold grantNoIter
  split
  · exact ds_grant _ rfl rfl
  · split
    · split
      · exact ds_grant _ rfl rfl
      · split
        · exact ds_grant _ rfl rfl
        · exact ds_finishGrant _ _ _ _
    · exact ds_finishGrant _ _ _ _

theorem ds_grantIter (tc : TC) (g : FedId) (s : Bool) : DS tc.self tc.deps (tc.grantIter g s).1.deps := by
  unfold grantIter
  split
  · split
    · exact ds_grant _ rfl rfl
    · split <;> exact ds_grant _ rfl rfl
  · split
    · have h := ds_finishGrant (tc.iterDecision s).1 g (tc.iterDecision s).2.1 (tc.iterDecision s).2.2
      rw [deps_iterDecision] at h
      rw [show (tc.iterDecision s).1.self = tc.self from congrArg Core.self (core_iterDecision tc s).1] at h
      exact h
    · exact ds_finishGrant _ _ _ _

theorem ds_checkTimeGrant (tc : TC) (g : FedId) : DS tc.self tc.deps (tc.checkTimeGrant g).1.deps := by
  have hu : tc.updateTimeFactors.deps = tc.deps := rfl
  have hs : tc.updateTimeFactors.self = tc.self := rfl
  unfold checkTimeGrant
  simp only
  split
  · exact deps_disconnect { tc.updateTimeFactors with granted := maxVal, grantBase := maxVal }
  · split
    · obtain ⟨o, l, u, h⟩ := replyTrigger_frame tc.updateTimeFactors g; rw [h]; exact .refl
    · split
      · obtain ⟨o, l, u, h⟩ := replyTrigger_frame tc.updateTimeFactors g; rw [h]; exact .refl
      · split
        · exact ds_grantNoIter { tc.updateTimeFactors with needSendAll := false } _ _
        · exact ds_grantIter { tc.updateTimeFactors with needSendAll := false } _ _
        · exact ds_grantIter { tc.updateTimeFactors with needSendAll := false } _ _
        · exact ds_finishGrant { tc.updateTimeFactors with needSendAll := false } _ _ _

theorem deps_sendUpdatedExecRequest (tc : TC) (a b : FedId) (c : Int) :
    (tc.sendUpdatedExecRequest a b c).deps = tc.deps := by
  unfold sendUpdatedExecRequest
  simp only
  split <;> rfl

theorem deps_replyExec (tc : TC) (a b : FedId) : (tc.replyExec a b).deps = tc.deps := by
  unfold replyExec
  split
  · rfl
  · split
    · exact deps_sendUpdatedExecRequest _ _ _ _
    · rfl

theorem deps_execNotReady (tc : TC) (a : FedId) : (tc.execNotReady a).deps = tc.deps := by
  unfold execNotReady
  split
  · split
    · simp only
      split
      · exact deps_sendUpdatedExecRequest _ _ _ _
      · exact deps_replyExec _ _ _
    · rfl
  · rfl

theorem deps_execDecision (tc : TC) (s : Bool) : (tc.execDecision s).1.deps = tc.deps := by
  unfold execDecision
  split
  · split <;> rfl
  iterate 2
    · simp only
      split
      · rfl
      · split
        · rfl
        · split
          · rfl
          · exact deps_applyRestriction _ _ _ _ _
  · rfl

theorem deps_execGrant (tc : TC) (r : MPR) :
    (tc.execGrant r).deps = if !tc.dynamicJoining && r == .iterating then tc.deps.resetIterExec else tc.deps := by
  unfold execGrant
  cases h : tc.dynamicJoining <;> cases r <;> simp <;> rfl

theorem deps_execContinue (tc : TC) (a : FedId) (s : Bool) (r : MPR) : (tc.execContinue a s r).deps = tc.deps := by
  unfold execContinue
  split
  · simp only
    split
    · exact deps_sendUpdatedExecRequest _ _ _ _
    · split
      · split
        · exact deps_sendUpdatedExecRequest _ _ _ _
        · exact deps_replyExec _ _ _
      · rfl
  · rfl

theorem ds_checkExecEntry (tc : TC) (a : FedId) : DS tc.self tc.deps (tc.checkExecEntry a).1.deps := by
  unfold checkExecEntry
  split
  · exact .refl
  · split
    · rw [deps_execNotReady]; exact .refl
    · simp only
      rw [deps_execContinue, deps_execGrant, deps_execDecision]
      split
      · exact .iterExec .refl
      · exact .refl

theorem deps_enteringExecMode (tc : TC) (m : IterReq) : (tc.enteringExecMode m).deps = tc.deps := by
  unfold enteringExecMode
  repeat' split
  all_goals (try rfl)
  all_goals (simp only; repeat' split)
  all_goals rfl

end TC
end Verif
