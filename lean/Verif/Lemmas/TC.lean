import Verif.Model.Fed
import Verif.Lemmas.MinTime
/-! Frame lemmas: which fields each coordinator operation may change. -/
namespace Verif
namespace TC

theorem transmit_frame (tc : TC) (m : Msg) (s : FedId) :
    (tc.transmit m s).1 = { tc with out := tc.out ++ timingCopies tc.deps m s } := rfl

theorem checkAndSend_frame (tc : TC) (m : Msg) (s : FedId) :
    ∃ o l, (tc.checkAndSend m s).1 = { tc with out := o, lastSend := l } := by
  unfold checkAndSend
  split
  · exact ⟨_, _, rfl⟩
  · exact ⟨tc.out, tc.lastSend, rfl⟩

theorem sendTimeRequest_frame (tc : TC) (g : FedId) :
    ∃ o l u, tc.sendTimeRequest g = { tc with out := o, lastSend := l, ub := u } := by
  unfold sendTimeRequest
  simp only
  split
  · obtain ⟨o, l, h⟩ := checkAndSend_frame tc tc.mkTimeRequest tc.upstream.minFed
    split
    · rw [h]; exact ⟨_, _, tc.ub, rfl⟩
    · rw [h]; exact ⟨_, _, tc.ub, rfl⟩
  · split
    · split
      · exact ⟨tc.out, tc.lastSend, true, rfl⟩
      · split
        · exact ⟨_, tc.lastSend, tc.ub, rfl⟩
        · exact ⟨tc.out, tc.lastSend, tc.ub, rfl⟩
    · exact ⟨tc.out, tc.lastSend, tc.ub, rfl⟩

theorem replyTrigger_frame (tc : TC) (g : FedId) :
    ∃ o l u, tc.replyTrigger g = { tc with out := o, lastSend := l, ub := u } := by
  unfold replyTrigger
  split
  · exact sendTimeRequest_frame tc g
  · exact ⟨tc.out, tc.lastSend, tc.ub, rfl⟩

theorem updateTimeFactors_frame (tc : TC) :
    ∃ to up mx mm nx md al, tc.updateTimeFactors =
      { tc with total := to, upstream := up, maxTime := mx, minminDe := mm, next := nx, minDe := md, allow := al,
                exec := tc.nextExec } := by
  exact ⟨_, _, _, _, _, _, _, rfl⟩

/-- The allow time computed by `updateTimeFactors`. -/
theorem updateTimeFactors_allow (tc : TC) :
    tc.updateTimeFactors.allow =
      let t := Deps.minTimeTotal tc.deps (tc.info.restrictive || tc.globalTime) invalidFed invalidFed tc.seq
      if t.next < cTerm - tc.info.outputDelay - max tc.info.period tc.info.timeDelta then
        tc.info.inputDelay + t.next else maxVal := rfl

theorem updateTimeFactors_exec (tc : TC) : tc.updateTimeFactors.exec = tc.nextExec := rfl

theorem finishGrant_continue_frame (tc : TC) (g : FedId) (s : Bool) :
    ∃ o l u, tc.finishGrant g s .continueProcessing =
      ({ tc with out := o, lastSend := l, ub := u }, .continueProcessing) := by
  unfold finishGrant
  simp only
  split
  · split
    · obtain ⟨o, l, u, h⟩ := sendTimeRequest_frame tc invalidFed
      exact ⟨o, l, u, by rw [h]⟩
    · split
      · obtain ⟨o, l, u, h⟩ := sendTimeRequest_frame tc g
        exact ⟨o, l, u, by rw [h]⟩
      · exact ⟨tc.out, tc.lastSend, tc.ub, rfl⟩
  · exact ⟨tc.out, tc.lastSend, tc.ub, rfl⟩

/-- `updateTimeGrant` without iteration sets the granted time to the execution time. -/
theorem updateTimeGrant_noIter (tc : TC) (h : tc.iterating = .noIterations) :
    ∃ s l o, tc.updateTimeGrant = { tc with granted := tc.exec, grantBase := tc.exec, seq := s, lastSend := l, out := o } := by
  unfold updateTimeGrant
  simp only [h, transmit_frame]
  simp

theorem grantNext_noIter (tc : TC) (h : tc.iterating = .noIterations) :
    ∃ s l o, tc.grantNext = { tc with
      iteration := 0, hasIterationData := false, granted := tc.exec, grantBase := tc.exec, seq := s, lastSend := l, out := o } := by
  unfold grantNext
  obtain ⟨s, l, o, h⟩ := updateTimeGrant_noIter { tc with iteration := 0, seq := 0, hasIterationData := false } h
  exact ⟨s, l, o, h⟩

end TC
end Verif
