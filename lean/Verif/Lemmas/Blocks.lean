import Verif.Lemmas.FedRun
/-! The time barriers of a federate change only by barrier commands. -/
namespace Verif
namespace TC

/-- the barriers after a command -/
def blocksAfter (tc : TC) (cmd : Msg) : List (Time × Int) × Time :=
  if isBlockCmd cmd.action then (tc.processBlock cmd).1.blocks else tc.blocks

theorem blocks_processTimeMessage (tc : TC) (cmd : Msg) :
    (tc.processTimeMessage cmd).1.blocks = tc.blocksAfter cmd := by
  unfold blocksAfter
  by_cases h : cmd.action = .forceTimeGrant
  · rw [h]
    unfold processTimeMessage
    rw [h]
    simp only [isBlockCmd]
    split <;> rfl
  · by_cases hb : isBlockCmd cmd.action = true
    · rw [if_pos hb]
      unfold isBlockCmd at hb
      unfold processTimeMessage
      split <;> simp_all
    · rw [if_neg hb]
      exact (core_processTimeMessage tc cmd h).2 (by simpa using hb)

theorem blocks_localError (tc : TC) : tc.localError.blocks = tc.blocks := by
  have key : ∀ (u : TC) (m : Msg), m.action = .localError → (u.processTimeMessage m).1.blocks = u.blocks := by
    intro u m hm
    rw [blocks_processTimeMessage]
    unfold blocksAfter
    rw [hm]; rfl
  unfold localError
  split
  · rfl
  · simp only
    split
    · rfl
    · split
      · split
        · exact key _ _ rfl
        · rfl
      · rfl
    · split
      · exact key _ _ rfl
      · rfl

theorem blocks_sendUpdatedExecRequest (tc : TC) (a b : FedId) (c : Int) :
    (tc.sendUpdatedExecRequest a b c).blocks = tc.blocks := by
  unfold sendUpdatedExecRequest
  simp only
  split <;> rfl

theorem blocks_replyExec (tc : TC) (a b : FedId) : (tc.replyExec a b).blocks = tc.blocks := by
  unfold replyExec
  split
  · rfl
  · split
    · exact blocks_sendUpdatedExecRequest _ _ _ _
    · rfl

theorem blocks_execNotReady (tc : TC) (a : FedId) : (tc.execNotReady a).blocks = tc.blocks := by
  unfold execNotReady
  split
  · split
    · simp only
      split
      · exact blocks_sendUpdatedExecRequest _ _ _ _
      · exact blocks_replyExec _ _ _
    · rfl
  · rfl

theorem blocks_execDecision (tc : TC) (s : Bool) : (tc.execDecision s).1.blocks = tc.blocks := by
  unfold execDecision
  split
  · split <;> rfl
  iterate 2
    · simp only
      split
      · rfl
      · split
        · rfl
        · split
          · rfl
          · exact (core_applyRestriction _ _ _ _ _).2.1
  · rfl

theorem blocks_execGrant (tc : TC) (r : MPR) : (tc.execGrant r).blocks = tc.blocks := by
  unfold execGrant
  split
  · split <;> rfl
  · split
    · exact (core_updateTimeFactors tc).2
    · rfl

theorem blocks_execContinue (tc : TC) (a : FedId) (s : Bool) (r : MPR) : (tc.execContinue a s r).blocks = tc.blocks := by
  unfold execContinue
  split
  · simp only
    split
    · exact blocks_sendUpdatedExecRequest _ _ _ _
    · split
      · split
        · exact blocks_sendUpdatedExecRequest _ _ _ _
        · exact blocks_replyExec _ _ _
      · rfl
  · rfl

theorem blocks_checkExecEntry (tc : TC) (a : FedId) : (tc.checkExecEntry a).1.blocks = tc.blocks := by
  unfold checkExecEntry
  split
  · rfl
  · split
    · exact blocks_execNotReady _ _
    · simp only
      rw [blocks_execContinue, blocks_execGrant, blocks_execDecision]
      rfl

theorem blocks_enteringExecMode (tc : TC) (m : IterReq) : (tc.enteringExecMode m).blocks = tc.blocks := by
  unfold enteringExecMode
  repeat' split
  all_goals (try rfl)
  all_goals (simp only; repeat' split)
  all_goals rfl

end TC

namespace Fed
open TC

theorem blocks_tryGrant (f : Fed) (t : FedId) : (f.tryGrant t).1.tc.blocks = f.tc.blocks := by
  unfold tryGrant
  split
  · exact checkTimeGrant_blocks _ _
  · rfl

theorem blocks_execCheck (f : Fed) (cmd : Msg) : (f.execCheck cmd).1.tc.blocks = f.tc.blocks := by
  unfold execCheck
  split
  · rfl
  · split
    · simp only
      have h := blocks_checkExecEntry f.tc (if cmd.action = .execRequest then cmd.source else invalidFed)
      split
      · exact h
      · exact h
      · show TC.blocks (if _ then _ else _) = _
        split
        · exact (blocks_sendUpdatedExecRequest _ _ _ _).trans h
        · exact h
      · exact h
    · rfl

theorem blocks_coordinator (f : Fed) (cmd : Msg) : (f.coordinator cmd).1.tc.blocks = f.tc.blocksAfter cmd := by
  have hp := blocks_processTimeMessage f.tc cmd
  have hn : isBlockCmd cmd.action = false → f.tc.blocks = f.tc.blocksAfter cmd := by
    intro h; unfold blocksAfter; rw [h]; rfl
  have hg : ∀ t, (({ f with tc := (f.tc.processTimeMessage cmd).1 } : Fed).tryGrant t).1.tc.blocks = f.tc.blocksAfter cmd :=
    fun t => (blocks_tryGrant _ _).trans hp
  have hec : (({ f with tc := (f.tc.processTimeMessage cmd).1 } : Fed).execCheck cmd).1.tc.blocks = f.tc.blocksAfter cmd :=
    (blocks_execCheck _ _).trans hp
  unfold coordinator
  simp only
  split <;> rename_i ha
  · exact hn (by rw [ha]; rfl)
  iterate 4
    · split
      · split
        · exact hp
        · split
          · exact hp
          · exact hp
      · exact hp
  · rw [← hn (by rw [ha]; rfl)]
    split
    · split
      · show TC.blocks (if _ then _ else _) = _
        split <;> rfl
      · show TC.blocks (if _ then _ else _) = _
        split <;> rfl
    · rfl
  · split
    · exact (blocks_enteringExecMode _ _).trans (hn (by rw [ha]; rfl))
    · split
      · exact hp
      · exact hp
      · exact hec
  · split
    · exact hp
    · exact hp
    · exact hec
  · exact (blocks_execCheck _ _).trans (hn (by rw [ha]; rfl))
  · exact hn (by rw [ha]; rfl)
  · exact (core_disconnect _).2.trans (hn (by rw [ha]; rfl))
  · rw [← hn (by rw [ha]; rfl)]
    split
    · show TC.blocks (if _ then _ else _) = _
      split
      · exact (core_disconnect _).2
      · rfl
    · rfl
  · exact hp
  · exact hp
  iterate 2
    · split
      · rw [← hn (by rw [ha]; rfl)]
        split
        · exact (core_disconnect _).2
        · rfl
      · split
        · exact hp
        · split
          · exact hg _
          · exact hp
  iterate 3
    · split
      · exact hp
      · exact hp
      · split
        · exact hp
        · exact hg _
  iterate 2
    · split
      · exact hp
      · exact hp
      · split
        · split <;> exact hp
        · exact hg _
  · rw [← hn (by rw [ha]; rfl)]
    split
    · split <;> rfl
    · exact blocks_tryGrant _ _
  · split
    · exact hn (by rw [ha]; rfl)
    · exact hp
  iterate 3
    · split
      · rw [← hn (by rw [ha]; rfl)]
        split
        · show TC.blocks (if _ then _ else _) = _
          split
          · exact blocks_localError _
          · rfl
        · rfl
      · split
        · exact hp
        · exact hp
        · split
          · exact hp
          · exact hg _
  iterate 6
    · rw [← hn (by rw [ha]; rfl)]
      split
      · exact (core_processDependencyUpdate _ _).2
      · rfl
  · apply hn
    unfold isBlockCmd
    cases h : cmd.action <;> simp_all

theorem blocks_stateChange (s : FedState) (f : Fed) : (stateChange s f).1.tc.blocks = f.tc.blocks := by
  unfold stateChange
  split
  · rfl
  · split
    · split
      · rfl
      · unfold enterInitialization; simp only; split <;> rfl
    · exact (core_updateTimeFactors _).2
    · rfl

theorem blocks_secondSwitch (f : Fed) (cmd : Msg) (x : Fed × MPR) (hx : secondSwitch f cmd = some x) :
    x.1.tc.blocks = f.tc.blocks := by
  unfold secondSwitch at hx
  split at hx <;> rename_i ha
  · split at hx
    · cases hx
    · cases hx; rfl
  iterate 2
    · have hp : (f.tc.processTimeMessage cmd).1.blocks = f.tc.blocks := by
        rw [blocks_processTimeMessage]; unfold blocksAfter; rw [ha]; rfl
      split at hx
      · split at hx
        · cases hx; exact (core_disconnect _).2
        · cases hx; rfl
      · simp only at hx
        split at hx
        · cases hx; exact hp
        · cases hx; exact hp
        · split at hx
          · cases hx; exact hp
          · split at hx
            · split at hx
              · cases hx; exact (checkTimeGrant_blocks _ _).trans hp
              · cases hx; exact (checkTimeGrant_blocks _ _).trans hp
            · cases hx; exact hp
  · cases hx; rfl

/-- a command handed back for reprocessing is not a barrier command -/
def NoBarrierAgain (r : Fed × MPR × Msg) : Prop := r.2.1 = .reprocessMessage → isBlockCmd r.2.2.action = false

theorem execDecision_result (tc : TC) (s : Bool) :
    (tc.execDecision s).2.2 = .nextStep ∨ (tc.execDecision s).2.2 = .iterating ∨
    (tc.execDecision s).2.2 = .continueProcessing := by
  have key : ∀ ok : MPR, ok = .nextStep ∨ ok = .iterating → ∀ c r s,
      (tc.applyRestriction c r s ok).2.2 = .nextStep ∨ (tc.applyRestriction c r s ok).2.2 = .iterating ∨
      (tc.applyRestriction c r s ok).2.2 = .continueProcessing := by
    intro ok hok c r s
    rcases (core_applyRestriction tc c r s ok).2.2.2 with h | h
    · rw [h]; rcases hok with h | h <;> simp [h]
    · simp [h]
  unfold execDecision
  split
  · split
    · simp
    · simp only; split <;> simp
  · rename_i hi
    simp only [hi, reduceCtorEq, if_false]
    repeat' split
    all_goals (try (simp; done))
    exact key _ (Or.inl rfl) _ _ _
  · rename_i hi
    simp only [hi, if_true]
    repeat' split
    all_goals (try (simp; done))
    exact key _ (Or.inr rfl) _ _ _
  · simp

theorem checkExecEntry_result (tc : TC) (t : FedId) :
    (tc.checkExecEntry t).2 = .nextStep ∨ (tc.checkExecEntry t).2 = .iterating ∨
    (tc.checkExecEntry t).2 = .continueProcessing := by
  unfold checkExecEntry
  split
  · simp
  · split
    · simp
    · exact execDecision_result _ _

theorem execCheck_result (f : Fed) (cmd : Msg) : (f.execCheck cmd).2 ≠ .reprocessMessage := by
  unfold execCheck
  split
  · simp
  · split
    · have := checkExecEntry_result f.tc (if cmd.action = .execRequest then cmd.source else invalidFed)
      simp only
      split
      · simp
      · simp
      · simp
      · rcases this with h | h | h <;> rw [h] <;> simp
    · simp

/-- the coordinator never turns a command into a barrier command -/
theorem coordinator_recheck (f : Fed) (cmd : Msg) : NoBarrierAgain (f.coordinator cmd) := by
  have hg : ∀ (g : Fed) t, NoBarrierAgain ((g.tryGrant t).1, (g.tryGrant t).2, cmd) :=
    fun g t h => absurd h (tryGrant_result _ _)
  have hc : ∀ (g : Fed), NoBarrierAgain ((g.execCheck cmd).1, (g.execCheck cmd).2, cmd) :=
    fun g h => absurd h (execCheck_result _ _)
  unfold coordinator
  simp only
  repeat' split
  all_goals (try exact hg _ _)
  all_goals (try exact hc _)
  all_goals (intro h)
  all_goals (try rfl)
  all_goals (try (simp at h; done))
  all_goals (try (simp only at h; split at h <;> simp at h; done))
  all_goals (simp_all [isBlockCmd])

theorem blocks_processN (n : Nat) (f : Fed) (cmd : Msg) (h : isBlockCmd cmd.action = false) :
    (processN n f cmd).1.tc.blocks = f.tc.blocks := by
  induction n generalizing f cmd with
  | zero => rfl
  | succ n ih =>
    have hc := blocks_coordinator f cmd
    have hr := coordinator_recheck f cmd
    have hn : f.tc.blocksAfter cmd = f.tc.blocks := by unfold blocksAfter; rw [h]; rfl
    rw [hn] at hc
    unfold processN
    generalize f.coordinator cmd = r at hc hr
    obtain ⟨g, p, c⟩ := r
    simp only at hc hr ⊢
    have hs := (blocks_stateChange f.state g).trans hc
    split
    · exact hs
    · split
      · split
        · rename_i x hx; exact (blocks_secondSwitch _ _ _ hx).trans hs
        · exact (ih _ _ rfl).trans hs
      · split
        · exact hs
        · exact (ih _ _ (hr rfl)).trans hs
      · exact hs

theorem process_blocks (f : Fed) (cmd : Msg) : (f.process cmd).1.tc.blocks = f.tc.blocksAfter cmd := by
  have hc := blocks_coordinator f cmd
  have hr := coordinator_recheck f cmd
  unfold process processN
  generalize f.coordinator cmd = r at hc hr
  obtain ⟨g, p, c⟩ := r
  simp only at hc hr ⊢
  have hs := (blocks_stateChange f.state g).trans hc
  split
  · exact hs
  · split
    · split
      · rename_i x hx; exact (blocks_secondSwitch _ _ _ hx).trans hs
      · exact (blocks_processN _ _ _ rfl).trans hs
    · split
      · exact hs
      · exact (blocks_processN _ _ _ (hr rfl)).trans hs
    · exact hs

end Fed
end Verif
