import Verif.Lemmas.TC
/-! The part of a coordinator that decides what is granted, and which operations leave it alone. -/
namespace Verif

/-- The fields of a coordinator relevant to grant decisions that only requests and grants may change. -/
structure Core where
  granted : Time
  grantBase : Time
  requested : Time
  iterating : IterReq
  info : TCOptions
  value : Time
  message : Time
  self : FedId
  executionMode : Bool
  iteration : Int
  hasIterationData : Bool
  nonGranting : Bool
  hasInitUpdates : Bool
  dynamicJoining : Bool
  globalTime : Bool

namespace TC

def core (tc : TC) : Core :=
  { granted := tc.granted, grantBase := tc.grantBase, requested := tc.requested, iterating := tc.iterating
    info := tc.info, value := tc.value, message := tc.message, self := tc.self, executionMode := tc.executionMode
    iteration := tc.iteration, hasIterationData := tc.hasIterationData, nonGranting := tc.nonGranting
    hasInitUpdates := tc.hasInitUpdates, dynamicJoining := tc.dynamicJoining, globalTime := tc.globalTime }

/-- time barrier state -/
def blocks (tc : TC) : List (Time × Int) × Time := (tc.timeBlocks, tc.block)

theorem core_sendTimeRequest (tc : TC) (g : FedId) :
    (tc.sendTimeRequest g).core = tc.core ∧ (tc.sendTimeRequest g).blocks = tc.blocks := by
  obtain ⟨o, l, u, h⟩ := sendTimeRequest_frame tc g; rw [h]; exact ⟨rfl, rfl⟩

theorem core_replyTrigger (tc : TC) (g : FedId) :
    (tc.replyTrigger g).core = tc.core ∧ (tc.replyTrigger g).blocks = tc.blocks := by
  obtain ⟨o, l, u, h⟩ := replyTrigger_frame tc g; rw [h]; exact ⟨rfl, rfl⟩

theorem core_updateTimeFactors (tc : TC) :
    tc.updateTimeFactors.core = tc.core ∧ tc.updateTimeFactors.blocks = tc.blocks := by
  obtain ⟨a, b, c, d, e, f, g, h⟩ := updateTimeFactors_frame tc; rw [h]; exact ⟨rfl, rfl⟩

theorem core_updateDeps (tc : TC) (cmd : Msg) :
    (tc.updateDeps cmd).1.core = tc.core ∧ (tc.updateDeps cmd).1.blocks = tc.blocks := by
  unfold updateDeps
  simp only
  split
  · split <;> exact ⟨rfl, rfl⟩
  · exact ⟨rfl, rfl⟩

def isBlockCmd (a : Cmd) : Bool := a == .timeBlock || a == .timeBarrier || a == .timeUnblock || a == .timeBarrierClear

theorem core_processBlock (tc : TC) (cmd : Msg) : (tc.processBlock cmd).1.core = tc.core := rfl

theorem core_processTimeMessage (tc : TC) (cmd : Msg) (h : cmd.action ≠ .forceTimeGrant) :
    (tc.processTimeMessage cmd).1.core = tc.core ∧
    (isBlockCmd cmd.action = false → (tc.processTimeMessage cmd).1.blocks = tc.blocks) := by
  unfold processTimeMessage
  split <;> rename_i ha
  case h_5 => exact absurd ha h
  all_goals (try (rw [ha]; exact ⟨core_processBlock tc cmd, fun h => by cases h⟩))
  all_goals (try exact ⟨(core_updateDeps _ cmd).1, fun _ => (core_updateDeps _ cmd).2⟩)
  · split
    · exact ⟨rfl, fun _ => rfl⟩
    · simp only
      split <;> exact ⟨rfl, fun _ => rfl⟩

theorem core_disconnect (tc : TC) : tc.disconnect.core = tc.core ∧ tc.disconnect.blocks = tc.blocks := by
  unfold disconnect
  split
  · exact ⟨rfl, rfl⟩
  · simp only
    split
    · exact ⟨rfl, rfl⟩
    · split
      · split
        · have := core_processTimeMessage tc { action := .disconnect, source := tc.self, dest := (by assumption : DepInfo).fedID } (by simp)
          exact ⟨this.1, this.2 rfl⟩
        · exact ⟨rfl, rfl⟩
      · exact ⟨rfl, rfl⟩
    · split
      · have := core_processTimeMessage tc { action := .disconnect, source := tc.self, dest := tc.self } (by simp)
        exact ⟨this.1, this.2 rfl⟩
      · exact ⟨rfl, rfl⟩

theorem core_finishGrant_continue (tc : TC) (g : FedId) (s : Bool) :
    (tc.finishGrant g s .continueProcessing).1.core = tc.core ∧
    (tc.finishGrant g s .continueProcessing).1.blocks = tc.blocks ∧
    (tc.finishGrant g s .continueProcessing).2 = .continueProcessing := by
  obtain ⟨o, l, u, h⟩ := finishGrant_continue_frame tc g s; rw [h]; exact ⟨rfl, rfl, rfl⟩

theorem core_send (tc : TC) (m : Msg) : (tc.send m).core = tc.core ∧ (tc.send m).blocks = tc.blocks := ⟨rfl, rfl⟩

theorem core_applyRestriction (tc : TC) (c : RestrictionCheck) (r s : Bool) (ok : MPR) :
    (tc.applyRestriction c r s ok).1.core = tc.core ∧ (tc.applyRestriction c r s ok).1.blocks = tc.blocks ∧
    (tc.applyRestriction c r s ok).1.exec = tc.exec ∧
    ((tc.applyRestriction c r s ok).2.2 = ok ∨ (tc.applyRestriction c r s ok).2.2 = .continueProcessing) := by
  unfold applyRestriction
  repeat' split
  all_goals exact ⟨rfl, rfl, rfl, by simp⟩

theorem core_iterDecision (tc : TC) (s : Bool) :
    (tc.iterDecision s).1.core = tc.core ∧ (tc.iterDecision s).1.blocks = tc.blocks ∧
    (tc.iterDecision s).1.exec = tc.exec ∧
    ((tc.iterDecision s).2.2 = .nextStep ∨ (tc.iterDecision s).2.2 = .iterating ∨
     (tc.iterDecision s).2.2 = .continueProcessing) := by
  unfold iterDecision
  repeat' split
  all_goals (try exact ⟨rfl, rfl, rfl, by simp⟩)
  have := core_applyRestriction tc (checkGrantRestriction tc.deps tc.self tc.seq tc.exec tc.info.waitForCurrent
        tc.info.restrictive) tc.info.restrictive s .nextStep
  refine ⟨this.1, this.2.1, this.2.2.1, ?_⟩
  rcases this.2.2.2 with h | h <;> simp [h]

/-- Effect of `updateTimeGrant` on the core. -/
theorem core_updateTimeGrant (tc : TC) :
    tc.updateTimeGrant.core = (if tc.iterating = .forceIteration then tc.core
      else { tc.core with granted := tc.exec, grantBase := tc.exec }) ∧
    tc.updateTimeGrant.blocks = tc.blocks := by
  unfold updateTimeGrant
  simp only [transmit_frame]
  by_cases h : tc.iterating = .forceIteration
  · simp [h, core, blocks]
  · by_cases h2 : tc.iterating = .noIterations
    · simp [h2, core, blocks]
    · simp [h, h2, core, blocks]

/-- The possible outcomes of a grant check. -/
inductive GrantOutcome (tc : TC) (r : TC × MPR) : Prop
  | halt (h1 : r.2 = .halted) (h2 : cTerm ≤ tc.nextExec) (h3 : cTerm ≤ tc.updateTimeFactors.allow)
      (h4 : r.1.core = { tc.core with granted := maxVal, grantBase := maxVal })
  | wait (h1 : r.2 = .continueProcessing) (h2 : r.1.core = tc.core)
  | plain (h1 : r.2 = .nextStep) (hi : tc.iterating ≠ .forceIteration)
      (hb : ¬ (tc.block ≤ tc.nextExec ∧ tc.block < cTerm))
      (ht : ¬ (cTerm ≤ tc.nextExec ∧ cTerm ≤ tc.updateTimeFactors.allow))
      (ha : tc.nextExec ≤ tc.updateTimeFactors.allow)
      (h4 : r.1.core = { tc.core with granted := tc.nextExec, grantBase := tc.nextExec, iteration := 0, hasIterationData := false })
  | iterate (h1 : r.2 = .iterating) (hi : tc.iterating = .forceIteration ∨ tc.iterating = .iterateIfNeeded)
      (hb : ¬ (tc.block ≤ tc.nextExec ∧ tc.block < cTerm))
      (ht : ¬ (cTerm ≤ tc.nextExec ∧ cTerm ≤ tc.updateTimeFactors.allow))
      (ha : tc.nextExec ≤ tc.updateTimeFactors.allow)
      (h4 : r.1.core = if tc.iterating = .forceIteration
        then { tc.core with iteration := tc.iteration + 1, hasIterationData := false }
        else { tc.core with granted := tc.nextExec, grantBase := tc.nextExec, iteration := tc.iteration + 1,
                            hasIterationData := false })

theorem core_finishGrant (tc : TC) (g : FedId) (s : Bool) (p : MPR) :
    (tc.finishGrant g s p).1.blocks = tc.blocks ∧
    (p = .iterating → (tc.finishGrant g s p).2 = .iterating ∧ (tc.finishGrant g s p).1.core =
      if tc.iterating = .forceIteration then { tc.core with iteration := tc.iteration + 1, hasIterationData := false }
      else { tc.core with granted := tc.exec, grantBase := tc.exec, iteration := tc.iteration + 1,
                          hasIterationData := false }) ∧
    (p = .nextStep → tc.iterating = .forceIteration → (tc.finishGrant g s p).2 = .iterating ∧
      (tc.finishGrant g s p).1.core = { tc.core with iteration := tc.iteration + 1, hasIterationData := false }) ∧
    (p = .nextStep → tc.iterating ≠ .forceIteration → (tc.finishGrant g s p).2 = .nextStep ∧
      (tc.finishGrant g s p).1.core = { tc.core with granted := tc.exec, grantBase := tc.exec, iteration := 0,
                                                     hasIterationData := false }) := by
  cases p with
  | continueProcessing =>
    exact ⟨(core_finishGrant_continue tc g s).2.1, by simp, by simp, by simp⟩
  | iterating =>
    have := core_updateTimeGrant { tc with iteration := tc.iteration + 1, hasIterationData := false }
    refine ⟨this.2, fun _ => ⟨rfl, ?_⟩, by simp, by simp⟩
    show (TC.updateTimeGrant _).core = _
    rw [this.1]
    by_cases hf : tc.iterating = .forceIteration
    · simp [hf, core]
    · simp [hf, core]
  | nextStep =>
    by_cases hf : tc.iterating = .forceIteration
    · have := core_updateTimeGrant { tc with iteration := tc.iteration + 1, hasIterationData := false, exec := tc.granted }
      have e : tc.finishGrant g s .nextStep = (({ tc with
          iteration := tc.iteration + 1, hasIterationData := false, exec := tc.granted } : TC).updateTimeGrant, .iterating) := by
        unfold finishGrant; simp only; rw [if_pos hf]
      rw [e]
      refine ⟨this.2, by simp, fun _ _ => ⟨rfl, ?_⟩, fun _ h => absurd hf h⟩
      show (TC.updateTimeGrant _).core = _
      rw [this.1]
      rw [if_pos hf]; rfl
    · have e : tc.finishGrant g s .nextStep = (tc.grantNext, .nextStep) := by
        unfold finishGrant; simp only; rw [if_neg hf]
      rw [e]
      have := core_updateTimeGrant { tc with iteration := 0, seq := 0, hasIterationData := false }
      refine ⟨this.2, by simp, fun _ h => absurd h hf, fun _ _ => ⟨rfl, ?_⟩⟩
      show (TC.updateTimeGrant _).core = _
      rw [this.1, if_neg hf]; rfl
  | _ => exact ⟨rfl, by simp, by simp, by simp⟩

theorem core_grantNext (tc : TC) (h : tc.iterating ≠ .forceIteration) :
    tc.grantNext.core = { tc.core with granted := tc.exec, grantBase := tc.exec, iteration := 0, hasIterationData := false } ∧
    tc.grantNext.blocks = tc.blocks := by
  unfold grantNext
  have := core_updateTimeGrant { tc with iteration := 0, seq := 0, hasIterationData := false }
  refine ⟨?_, this.2⟩
  rw [this.1]; simp [h, core]

theorem grantNext_blocks (tc : TC) : tc.grantNext.blocks = tc.blocks :=
  (core_updateTimeGrant { tc with iteration := 0, seq := 0, hasIterationData := false }).2

theorem grantNoIter_blocks (tc : TC) (g : FedId) (s : Bool) : (tc.grantNoIter g s).1.blocks = tc.blocks := by
  unfold grantNoIter
  split
  · exact grantNext_blocks tc
  · split
    · split
      · exact grantNext_blocks tc
      · split
        · exact grantNext_blocks tc
        · exact (core_finishGrant_continue _ _ _).2.1
    · exact (core_finishGrant_continue _ _ _).2.1

theorem grantIter_blocks (tc : TC) (g : FedId) (s : Bool) : (tc.grantIter g s).1.blocks = tc.blocks := by
  unfold grantIter
  split
  · split
    · exact (core_updateTimeGrant _).2
    · split <;> exact (core_updateTimeGrant _).2
  · split
    · exact ((core_finishGrant _ _ _ _).1).trans (core_iterDecision _ _).2.1
    · exact (core_finishGrant_continue _ _ _).2.1

theorem checkTimeGrant_blocks (tc : TC) (g : FedId) : (tc.checkTimeGrant g).1.blocks = tc.blocks := by
  have hu := (core_updateTimeFactors tc).2
  unfold checkTimeGrant
  simp only
  split
  · rw [(core_disconnect _).2]; exact hu
  · split
    · rw [(core_replyTrigger _ g).2]; exact hu
    · split
      · rw [(core_replyTrigger _ g).2]; exact hu
      · split
        · exact (grantNoIter_blocks _ _ _).trans hu
        · exact (grantIter_blocks _ _ _).trans hu
        · exact (grantIter_blocks _ _ _).trans hu
        · rw [(core_finishGrant_continue _ _ _).2.1]; exact hu

theorem grantIter_outcome (tc u : TC) (g : FedId) (s : Bool)
    (hit : tc.iterating = .forceIteration ∨ tc.iterating = .iterateIfNeeded)
    (huc : u.core = tc.core) (hue : u.exec = tc.nextExec) (hua : u.allow = tc.updateTimeFactors.allow)
    (hb : ¬ (tc.block ≤ tc.nextExec ∧ tc.block < cTerm))
    (ht : ¬ (cTerm ≤ tc.nextExec ∧ cTerm ≤ tc.updateTimeFactors.allow)) :
    GrantOutcome tc (u.grantIter g s) := by
  have hui : u.iterating = tc.iterating := congrArg Core.iterating huc
  have hun : u.iteration = tc.iteration := congrArg Core.iteration huc
  unfold grantIter
  split
  · rename_i hgt
    have ha : tc.nextExec ≤ tc.updateTimeFactors.allow := by omega
    split
    · have := core_updateTimeGrant { u with iteration := u.iteration + 1, hasIterationData := false }
      refine .iterate rfl hit hb ht ha ?_
      show (TC.updateTimeGrant _).core = _
      rw [this.1]
      simp only [core, Core.mk.injEq, ← hui, ← hun] at huc ⊢
      by_cases hf : u.iterating = .forceIteration <;> simp [hf, huc, hue]
    · split
      · rename_i hd hf
        have := core_updateTimeGrant { u with iteration := u.iteration + 1 }
        refine .iterate rfl hit hb ht ha ?_
        show (TC.updateTimeGrant _).core = _
        rw [this.1]
        have hid : u.hasIterationData = false := by
          cases h : u.hasIterationData with
          | false => rfl
          | true => exact absurd (Or.inr h) hd
        have hc : tc.core = { tc.core with hasIterationData := false } := by
          rw [← huc]; unfold core; rw [hid]
        rw [if_pos hf, if_pos (hui.symm.trans hf), ← hun]
        show { u.core with iteration := u.iteration + 1 } = _
        rw [huc]
        exact congrArg (fun c : Core => { c with iteration := u.iteration + 1 }) hc
      · rename_i hd hf
        have := core_updateTimeGrant { u with iteration := 0, seq := 0 }
        refine .plain rfl (by rw [← hui]; exact hf) hb ht ha ?_
        show (TC.updateTimeGrant _).core = _
        rw [this.1]
        have hid : u.hasIterationData = false := by
          cases h : u.hasIterationData with
          | false => rfl
          | true => exact absurd (Or.inr h) hd
        have hc : tc.core = { tc.core with hasIterationData := false } := by
          rw [← huc]; unfold core; rw [hid]
        rw [if_neg hf]
        show { u.core with granted := u.exec, grantBase := u.exec, iteration := 0 } = _
        rw [huc, hue]
        exact congrArg (fun c : Core => { c with granted := tc.nextExec, grantBase := tc.nextExec, iteration := 0 }) hc
  · split
    · rename_i hne heq
      have ha : tc.nextExec ≤ tc.updateTimeFactors.allow := by omega
      simp only
      obtain ⟨c1, c2, c3, c4⟩ := core_iterDecision u s
      obtain ⟨f1, f2, f3, f4⟩ := core_finishGrant (u.iterDecision s).1 g (u.iterDecision s).2.1 (u.iterDecision s).2.2
      have hci : (u.iterDecision s).1.iterating = tc.iterating := (congrArg Core.iterating c1).trans hui
      have hcn : (u.iterDecision s).1.iteration = tc.iteration := (congrArg Core.iteration c1).trans hun
      rcases c4 with c4 | c4 | c4
      · by_cases hf : tc.iterating = .forceIteration
        · obtain ⟨x1, x2⟩ := f3 c4 (hci.trans hf)
          refine .iterate x1 hit hb ht ha ?_
          rw [x2, c1, huc, hcn, if_pos hf]
        · obtain ⟨x1, x2⟩ := f4 c4 (by rw [hci]; exact hf)
          refine .plain x1 hf hb ht ha ?_
          rw [x2, c1, huc, c3, hue]
      · obtain ⟨x1, x2⟩ := f2 c4
        refine .iterate x1 hit hb ht ha ?_
        rw [x2, c1, huc, c3, hue, hci, hcn]
      · rw [c4]
        obtain ⟨x1, x2, x3⟩ := core_finishGrant_continue (u.iterDecision s).1 g (u.iterDecision s).2.1
        exact .wait x3 (by rw [x1, c1, huc])
    · obtain ⟨x1, x2, x3⟩ := core_finishGrant_continue u g s
      exact .wait x3 (x1.trans huc)

theorem checkTimeGrant_outcome (tc : TC) (g : FedId) : GrantOutcome tc (tc.checkTimeGrant g) := by
  have hu := core_updateTimeFactors tc
  have hue := updateTimeFactors_exec tc
  have hub : tc.updateTimeFactors.block = tc.block := congrArg Prod.snd hu.2
  have hui : tc.updateTimeFactors.iterating = tc.iterating := congrArg Core.iterating hu.1
  unfold checkTimeGrant
  simp only
  split
  · rename_i h
    rw [hue] at h
    refine .halt rfl h.1 h.2 ?_
    rw [(core_disconnect _).1]
    have := hu.1
    simp only [core, Core.mk.injEq] at this ⊢
    simp [this]
  · rename_i ht
    rw [hue] at ht
    split
    · exact .wait rfl ((core_replyTrigger _ g).1.trans hu.1)
    · rename_i hb
      rw [hue, hub] at hb
      split
      · exact .wait rfl ((core_replyTrigger _ g).1.trans hu.1)
      · split
        · rename_i hi
          have hi' : tc.iterating = .noIterations := hui.symm.trans hi
          unfold grantNoIter
          have gn := core_grantNext { tc.updateTimeFactors with needSendAll := false } (by rw [hi]; decide)
          have hgc : (TC.grantNext { tc.updateTimeFactors with needSendAll := false }).core =
              { tc.core with granted := tc.nextExec, grantBase := tc.nextExec, iteration := 0, hasIterationData := false } := by
            rw [gn.1]
            have h1 := hu.1
            simp only [core, Core.mk.injEq, hue] at h1 ⊢
            simp [h1]
          simp only [hue]
          split
          · rename_i h
            exact .plain rfl (by simp [hi']) hb ht (by omega) hgc
          · split
            · rename_i h
              split
              · exact .plain rfl (by simp [hi']) hb ht (by omega) hgc
              · split
                · exact .plain rfl (by simp [hi']) hb ht (by omega) hgc
                · obtain ⟨x1, x2, x3⟩ := core_finishGrant_continue
                    { tc.updateTimeFactors with needSendAll := false } g tc.updateTimeFactors.needSendAll
                  exact .wait x3 (x1.trans hu.1)
            · obtain ⟨x1, x2, x3⟩ := core_finishGrant_continue
                { tc.updateTimeFactors with needSendAll := false } g tc.updateTimeFactors.needSendAll
              exact .wait x3 (x1.trans hu.1)
        · rename_i hi
          exact grantIter_outcome tc _ g _ (Or.inr (hui.symm.trans hi)) hu.1 hue rfl hb ht
        · rename_i hi
          exact grantIter_outcome tc _ g _ (Or.inl (hui.symm.trans hi)) hu.1 hue rfl hb ht
        · obtain ⟨x1, x2, x3⟩ := core_finishGrant_continue
            { tc.updateTimeFactors with needSendAll := false } g tc.updateTimeFactors.needSendAll
          exact .wait x3 (x1.trans hu.1)

end TC
end Verif
