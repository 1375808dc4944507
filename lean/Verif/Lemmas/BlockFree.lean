import Verif.Lemmas.Blocks
namespace Verif
namespace TC

/-- the same coordinator with other barriers -/
def setB (tc : TC) (b : List (Time × Int) × Time) : TC := { tc with timeBlocks := b.1, block := b.2 }

theorem setB_transmit (tc : TC) (b) (m : Msg) (s : FedId) :
    (tc.setB b).transmit m s = ((tc.transmit m s).1.setB b, (tc.transmit m s).2) := rfl
theorem setB_send (tc : TC) (b) (m : Msg) : (tc.setB b).send m = (tc.send m).setB b := rfl
theorem setB_checkAndSend (tc : TC) (b) (m : Msg) (s : FedId) :
    (tc.setB b).checkAndSend m s = ((tc.checkAndSend m s).1.setB b, (tc.checkAndSend m s).2) := by
  unfold checkAndSend
  rw [show (tc.setB b).requestChanged m = tc.requestChanged m from rfl]
  split <;> rfl
theorem setB_sendTimeRequest (tc : TC) (b) (g : FedId) : (tc.setB b).sendTimeRequest g = (tc.sendTimeRequest g).setB b := by
  unfold sendTimeRequest
  simp only
  rw [show (tc.setB b).mkTimeRequest = tc.mkTimeRequest from rfl, show (tc.setB b).upstream = tc.upstream from rfl,
    show (tc.setB b).deps = tc.deps from rfl, setB_checkAndSend]
  simp only
  split
  · split <;> rfl
  · split
    · split
      · rfl
      · split <;> rfl
    · rfl
theorem setB_replyTrigger (tc : TC) (b) (g : FedId) : (tc.setB b).replyTrigger g = (tc.replyTrigger g).setB b := by
  unfold replyTrigger
  rw [show (tc.setB b).self = tc.self from rfl]
  split
  · exact setB_sendTimeRequest _ _ _
  · rfl
theorem setB_updateTimeFactors (tc : TC) (b) : (tc.setB b).updateTimeFactors = tc.updateTimeFactors.setB b := rfl
theorem setB_updateTimeGrant (tc : TC) (b) : (tc.setB b).updateTimeGrant = tc.updateTimeGrant.setB b := by
  cases tc
  rename_i it _ _ _ _ _ _ _ _ _
  cases it <;> rfl
theorem setB_finishGrant (tc : TC) (b) (g : FedId) (s : Bool) (p : MPR) :
    (tc.setB b).finishGrant g s p = ((tc.finishGrant g s p).1.setB b, (tc.finishGrant g s p).2) := by
  unfold finishGrant
  split
  · rw [show (tc.setB b).self = tc.self from rfl]
    split
    · split
      · rw [setB_sendTimeRequest]
      · split
        · rw [setB_sendTimeRequest]
        · rfl
    · rfl
  · rw [← setB_updateTimeGrant]; rfl
  · rw [show (tc.setB b).iterating = tc.iterating from rfl]
    split
    · rw [← setB_updateTimeGrant]; rfl
    · unfold grantNext; rw [← setB_updateTimeGrant]; rfl
  · rfl
theorem setB_grantNext (tc : TC) (b) : (tc.setB b).grantNext = tc.grantNext.setB b := by
  unfold grantNext; rw [← setB_updateTimeGrant]; rfl
theorem setB_grantNoIter (tc : TC) (b) (g : FedId) (s : Bool) :
    (tc.setB b).grantNoIter g s = ((tc.grantNoIter g s).1.setB b, (tc.grantNoIter g s).2) := by
  unfold grantNoIter
  rw [setB_grantNext, setB_finishGrant]
  rw [show (tc.setB b).allow = tc.allow from rfl, show (tc.setB b).exec = tc.exec from rfl,
    show (tc.setB b).info = tc.info from rfl, show (tc.setB b).requested = tc.requested from rfl,
    show (tc.setB b).deps = tc.deps from rfl]
  repeat' split
  all_goals rfl
theorem setB_applyRestriction (tc : TC) (b) (c : RestrictionCheck) (r s : Bool) (ok : MPR) :
    (tc.setB b).applyRestriction c r s ok = ((tc.applyRestriction c r s ok).1.setB b, (tc.applyRestriction c r s ok).2) := by
  unfold applyRestriction
  rw [show (tc.setB b).restrictionLevel = tc.restrictionLevel from rfl]
  repeat' split
  all_goals rfl
theorem setB_iterDecision (tc : TC) (b) (s : Bool) :
    (tc.setB b).iterDecision s = ((tc.iterDecision s).1.setB b, (tc.iterDecision s).2) := by
  unfold iterDecision
  rw [show (tc.setB b).allow = tc.allow from rfl, show (tc.setB b).exec = tc.exec from rfl,
    show (tc.setB b).info = tc.info from rfl, show (tc.setB b).requested = tc.requested from rfl,
    show (tc.setB b).deps = tc.deps from rfl, show (tc.setB b).hasIterationData = tc.hasIterationData from rfl,
    show (tc.setB b).granted = tc.granted from rfl, show (tc.setB b).self = tc.self from rfl,
    show (tc.setB b).seq = tc.seq from rfl, setB_applyRestriction]
  repeat' split
  all_goals rfl
theorem setB_grantIter (tc : TC) (b) (g : FedId) (s : Bool) :
    (tc.setB b).grantIter g s = ((tc.grantIter g s).1.setB b, (tc.grantIter g s).2) := by
  unfold grantIter
  simp only
  rw [show (tc.setB b).allow = tc.allow from rfl, show (tc.setB b).exec = tc.exec from rfl,
    show (tc.setB b).hasIterationData = tc.hasIterationData from rfl,
    show (tc.setB b).granted = tc.granted from rfl, show (tc.setB b).iterating = tc.iterating from rfl, setB_iterDecision]
  split
  · split
    · rw [← setB_updateTimeGrant]; rfl
    · split
      · rw [← setB_updateTimeGrant]; rfl
      · rw [← setB_updateTimeGrant]; rfl
  · split
    · exact setB_finishGrant _ _ _ _ _
    · exact setB_finishGrant _ _ _ _ _
theorem setB_updateDeps (tc : TC) (b) (cmd : Msg) :
    (tc.setB b).updateDeps cmd = ((tc.updateDeps cmd).1.setB b, (tc.updateDeps cmd).2) := by
  unfold updateDeps
  simp only
  rw [show (tc.setB b).deps = tc.deps from rfl, show (tc.setB b).info = tc.info from rfl]
  split
  · split <;> rfl
  · rfl
theorem setB_disconnect (tc : TC) (b) : (tc.setB b).disconnect = tc.disconnect.setB b := by
  have key : ∀ (u : TC) (m : Msg), m.action = .disconnect →
      ((u.setB b).processTimeMessage m).1 = (u.processTimeMessage m).1.setB b := by
    intro u m hm
    unfold processTimeMessage
    rw [hm]
    simp only
    rw [show (u.setB b).removeDependent m.source = (u.removeDependent m.source).setB b from rfl, setB_updateDeps]
  unfold disconnect
  rw [show (tc.setB b).disconnected = tc.disconnected from rfl, show (tc.setB b).deps = tc.deps from rfl,
    show (tc.setB b).self = tc.self from rfl]
  split
  · rfl
  · simp only
    split
    · rfl
    · split
      · split
        · rw [key _ _ rfl]; rfl
        · rfl
      · rfl
    · split
      · rw [key _ _ rfl]; rfl
      · rfl

/-- Barriers at or past the end of the simulation do not influence a grant. -/
theorem checkTimeGrant_setB (tc : TC) (b : List (Time × Int) × Time) (g : FedId) (h : cTerm ≤ tc.block) (hb : cTerm ≤ b.2) :
    (tc.setB b).checkTimeGrant g = ((tc.checkTimeGrant g).1.setB b, (tc.checkTimeGrant g).2) := by
  unfold checkTimeGrant
  simp only
  rw [setB_updateTimeFactors]
  have h1 : tc.updateTimeFactors.block = tc.block := congrArg Prod.snd (core_updateTimeFactors tc).2
  generalize tc.updateTimeFactors = u at h1
  rw [show (u.setB b).block = b.2 from rfl, show (u.setB b).exec = u.exec from rfl, show (u.setB b).allow = u.allow from rfl,
    show (u.setB b).nonGranting = u.nonGranting from rfl, show (u.setB b).requested = u.requested from rfl]
  rw [if_neg (show ¬ (b.2 ≤ u.exec ∧ b.2 < cTerm) by omega), if_neg (show ¬ (u.block ≤ u.exec ∧ u.block < cTerm) by omega)]
  split
  · rw [← setB_disconnect]; rfl
  · split
    · rw [setB_replyTrigger]
    · rw [show (u.setB b).iterating = u.iterating from rfl]
      split
      · exact setB_grantNoIter { u with needSendAll := false } _ _ _
      · exact setB_grantIter { u with needSendAll := false } _ _ _
      · exact setB_grantIter { u with needSendAll := false } _ _ _
      · exact setB_finishGrant { u with needSendAll := false } _ _ _ _

end TC
end Verif
