import Verif.Lemmas.AllDeps
/-! Which coordinator state let a federate enter executing mode. -/
namespace Verif
namespace TC
open Deps

/-- the iteration mode with which the coordinator looks at a command -/
def modeAfter (tc : TC) (cmd : Msg) : IterReq :=
  if cmd.action = .execRequest ∧ cmd.source = tc.self ∧ cmd.indicator = true then
    (tc.enteringExecMode (if cmd.iterationRequested then
      (if cmd.required then .forceIteration else .iterateIfNeeded) else .noIterations)).iterating
  else tc.iterating

theorem info_enteringExecMode (tc : TC) (m : IterReq) : (tc.enteringExecMode m).info = tc.info := by
  unfold enteringExecMode
  repeat' split
  all_goals (try rfl)
  all_goals (simp only; repeat' split)
  all_goals rfl

theorem checkExecEntry_next {tc : TC} {t : FedId} (h : (tc.checkExecEntry t).2 = .nextStep) :
    0 < tc.block ∧ tc.deps.readyForExecEntry (tc.iterating != .noIterations) tc.info.waitForCurrent = true := by
  unfold checkExecEntry at h
  split at h
  · cases h
  · rename_i hb
    split at h
    · cases h
    · rename_i hr
      exact ⟨by omega, by simpa using hr⟩

end TC
namespace Fed
open TC Deps

theorem coordinator_again (f : Fed) (cmd : Msg) (hp : (f.coordinator cmd).2.1 = .reprocessMessage)
    (hd : (f.coordinator cmd).2.2.dest ≠ parentBroker) : (f.coordinator cmd).1.tc.core = f.tc.core := by
  have hg : ∀ (g : Fed) t, (g.tryGrant t).2 = .reprocessMessage → False := fun g t h => tryGrant_result _ _ h
  have hc : ∀ (g : Fed), (g.execCheck cmd).2 = .reprocessMessage → False := fun g h => execCheck_result _ _ h
  unfold coordinator at hp hd ⊢
  simp only at hp hd ⊢
  split at hp <;> rename_i ha <;> simp only [ha] at hp hd ⊢
  all_goals (repeat' split at hp)
  all_goals (try (cases hp; done))
  all_goals (try exact absurd hp (hg _ _))
  all_goals (try exact absurd hp (hc _))
  all_goals (try (simp_all; done))
  all_goals (simp_all [core_processTimeMessage])

/-- the coordinator enters executing mode only by its entry check -/
theorem coordinator_entered (f : Fed) (cmd : Msg) (hs : f.state ≠ .executing)
    (he : (f.coordinator cmd).1.state = .executing) :
    ∃ (c : TC) (t : FedId), c.core = f.tc.core ∧ DR f.tc.self cmd (f.tc.tableAfter cmd) c.deps ∧
      ¬ ownExec f cmd ∧ (c.checkExecEntry t).2 = .nextStep := by
  have hec : ∀ g : Fed, g.state ≠ .executing → (g.execCheck cmd).1.state = .executing →
      ∃ t, (g.tc.checkExecEntry t).2 = .nextStep := by
    intro g hg h
    unfold execCheck at h
    split at h
    · exact absurd h hg
    · split at h
      · simp only at h
        refine ⟨if cmd.action = .execRequest then cmd.source else invalidFed, ?_⟩
        split at h <;> rename_i hr
        · exact absurd h hg
        · exact hr
        · exact absurd h hg
        · exact absurd h hg
      · exact absurd h hg
  have htg : ∀ (g : Fed) t, g.state ≠ .executing → (g.tryGrant t).1.state ≠ .executing := by
    intro g t h; rw [tryGrant_keep]; exact h
  have hh : (cmd.action = .execRequest ∧ ¬ (cmd.source = f.tc.self ∧ cmd.indicator = true)) ∨ cmd.action = .execGrant →
      DR f.tc.self cmd (f.tc.tableAfter cmd) (f.tc.processTimeMessage cmd).1.deps := by
    intro h
    apply dr_heard
    rcases h with ⟨ha, hb⟩ | ha <;> simp [heardOrAsked, hears, ha]
    · left
      by_cases e : cmd.source = f.tc.self
      · right; simpa [e] using hb
      · exact Or.inl e
  unfold coordinator at he
  simp only at he
  split at he <;> rename_i ha
  case h_7 =>
    split at he
    · exact absurd he hs
    · rename_i hn
      have hx : ∃ t, ((f.tc.processTimeMessage cmd).1.checkExecEntry t).2 = .nextStep := by
        split at he
        · exact absurd he hs
        · exact absurd he hs
        · exact hec { f with tc := (f.tc.processTimeMessage cmd).1 } hs he
      obtain ⟨t, ht⟩ := hx
      exact ⟨(f.tc.processTimeMessage cmd).1, t, (core_processTimeMessage _ _ (by rw [ha]; decide)).1,
        hh (Or.inl ⟨ha, hn⟩), fun h => hn h.2, ht⟩
  case h_8 =>
    have hx : ∃ t, ((f.tc.processTimeMessage cmd).1.checkExecEntry t).2 = .nextStep := by
      split at he
      · exact absurd he hs
      · exact absurd he hs
      · exact hec { f with tc := (f.tc.processTimeMessage cmd).1 } hs he
    obtain ⟨t, ht⟩ := hx
    exact ⟨(f.tc.processTimeMessage cmd).1, t, (core_processTimeMessage _ _ (by rw [ha]; decide)).1,
      hh (Or.inr ha), (fun h => by have := h.1; rw [ha] at this; cases this), ht⟩
  case h_9 =>
    obtain ⟨t, ht⟩ := hec f hs he
    exact ⟨f.tc, t, rfl, by rw [tableAfter_check _ _ (Or.inl ha)]; exact .refl,
      (fun h => by have := h.1; rw [ha] at this; cases this), ht⟩
  all_goals (exfalso; repeat' split at he)
  all_goals (first | exact absurd he hs | exact htg _ _ hs he | (simp at he; done) | exact absurd he hs)

/-- the same for a whole event -/
theorem processN_entered (n : Nat) (f : Fed) (cmd : Msg) (hs : f.state ≠ .executing) (hct : cmd.actionTime ≤ maxVal)
    (hid : f.tc.self ≠ parentBroker) (he : (processN n f cmd).1.state = .executing) :
    ∃ (c : TC) (t : FedId), c.info = f.tc.info ∧ c.iterating = f.tc.modeAfter cmd ∧
      DR f.tc.self cmd (f.tc.tableAfter cmd) c.deps ∧ (c.checkExecEntry t).2 = .nextStep := by
  induction n generalizing f cmd with
  | zero => exact absurd he hs
  | succ n ih =>
    have hp := coordinator_progress f cmd
    have hd := dr_coordinator f cmd
    have hk := self_coordinator f cmd hct
    have hh := coordinator_handed f cmd
    have hag := coordinator_again f cmd
    by_cases hx : (f.coordinator cmd).1.state = .executing
    · obtain ⟨c, t, h1, h2, h3, h4⟩ := coordinator_entered f cmd hs hx
      refine ⟨c, t, congrArg Core.info h1, ?_, h2, h4⟩
      unfold modeAfter
      rw [if_neg (show ¬ (_ ∧ _ ∧ _) from h3)]
      exact congrArg Core.iterating h1
    · have hown : ownExec f cmd → (f.coordinator cmd).1.tc = f.tc.enteringExecMode (if cmd.iterationRequested then
          (if cmd.required then .forceIteration else .iterateIfNeeded) else .noIterations) := by
        intro ho
        unfold coordinator
        simp only [ho.1, ho.2.1, ho.2.2, and_self, if_true]
      have hnot : ¬ ownExec f cmd → (f.coordinator cmd).2.1 = .continueProcessing →
          (f.coordinator cmd).1.tc.self = f.tc.self → secondSwitch (f.coordinator cmd).1 cmd = none → False := by
        intro ho _ hse h
        unfold secondSwitch at h
        split at h <;> rename_i ha
        · split at h
          · rename_i h2; exact ho ⟨ha, by rw [← hse]; exact h2.1, h2.2⟩
          · cases h
        · split at h
          · split at h <;> cases h
          · simp only at h
            repeat' split at h
            all_goals cases h
        · split at h
          · split at h <;> cases h
          · simp only at h
            repeat' split at h
            all_goals cases h
        · cases h
      have hmode : ∀ (g : Fed) (a : Cmd), (a = .execCheck ∨ a = .timeCheck) →
          g.tc.modeAfter { cmd with action := a } = g.tc.iterating := by
        intro g a ha
        unfold modeAfter
        rw [if_neg (by rcases ha with e | e <;> simp [e])]
      unfold processN at he
      generalize hr : f.coordinator cmd = r at *
      obtain ⟨g, p, c⟩ := r
      simp only at hp he hd hk hh hag hx hown hnot
      -- the state change of a federate that does not enter executing mode
      have hsc : ∀ (P : Prop), ((stateChange f.state g).2 = true → P) →
          ((stateChange f.state g).2 = false → (stateChange f.state g).1.state ≠ .executing ∧
            (stateChange f.state g).1.tc.deps = g.tc.deps ∧ (stateChange f.state g).1.tc.core = g.tc.core → P) → P := by
        intro P h1 h2
        cases hb : (stateChange f.state g).2 with
        | true => exact h1 hb
        | false =>
          refine h2 hb ⟨?_, deps_stateChange _ _, ?_⟩
          · unfold stateChange
            split
            · exact hx
            · split
              · split
                · exact (nomatch ·)
                · rename_i h _; show g.state ≠ _; rw [h]; exact (nomatch ·)
              · rename_i h; exact absurd h hx
              · exact hx
          · unfold stateChange
            split
            · rfl
            · split
              · split
                · rfl
                · unfold enterInitialization; simp only; split <;> rfl
              · exact (core_updateTimeFactors _).1
              · rfl
      refine hsc _ (fun hb => ?_) (fun hb ⟨k1, k2, k3⟩ => ?_)
      · exfalso
        rw [if_pos hb] at he
        unfold stateChange at he hb
        split at hb
        · cases hb
        · split at hb
          · split at hb
            · rename_i h3 _ h4 h5
              rw [if_neg h3, h4] at he
              simp only [h5] at he
              cases he
            · cases hb
          · cases hb
          · cases hb
      rw [if_neg (by rw [hb]; simp)] at he
      have kself : (stateChange f.state g).1.tc.self = f.tc.self := (congrArg Core.self k3).trans hk
      -- going on with the check command
      have go : ∀ a : Cmd, (a = .execCheck ∨ a = .timeCheck) →
          (processN n (stateChange f.state g).1 { cmd with action := a }).1.state = .executing →
          g.tc.info = f.tc.info → g.tc.iterating = f.tc.modeAfter cmd →
          ∃ (c : TC) (t : FedId), c.info = f.tc.info ∧ c.iterating = f.tc.modeAfter cmd ∧
            DR f.tc.self cmd (f.tc.tableAfter cmd) c.deps ∧ (c.checkExecEntry t).2 = .nextStep := by
        intro a ha hpn hinfo hit
        obtain ⟨c, t, h1, h2, h3, h4⟩ := ih (stateChange f.state g).1 { cmd with action := a } k1 hct
          (by rw [kself]; exact hid) hpn
        refine ⟨c, t, h1.trans ((congrArg Core.info k3).trans hinfo), ?_, ?_, h4⟩
        · rw [h2, hmode _ a ha]; exact (congrArg Core.iterating k3).trans hit
        · rw [tableAfter_check _ _ ha] at h3
          have h5 := (h3.ds ha).dr cmd
          rw [kself, k2] at h5
          exact hd.trans h5
      split at he
      · rename_i hcont
        have hc := hh.1 rfl
        simp only at hc
        subst hc
        split at he
        · rename_i x hx2
          exact absurd he (secondSwitch_notExec _ _ k1 _ hx2)
        · rename_i hx2
          by_cases ho : ownExec f c
          · refine go .execCheck (Or.inl rfl) he ?_ ?_
            · rw [hown ho]; exact info_enteringExecMode _ _
            · rw [hown ho]; unfold modeAfter; rw [if_pos (show _ ∧ _ ∧ _ from ho)]
          · exfalso
            unfold secondSwitch at hx2
            split at hx2 <;> rename_i ha
            · split at hx2
              · rename_i h2; exact ho ⟨ha, by rw [← kself]; exact h2.1, h2.2⟩
              · cases hx2
            · split at hx2
              · split at hx2 <;> cases hx2
              · simp only at hx2
                repeat' split at hx2
                all_goals cases hx2
            · split at hx2
              · split at hx2 <;> cases hx2
              · simp only at hx2
                repeat' split at hx2
                all_goals cases hx2
            · cases hx2
      · split at he
        · exact absurd he k1
        · rename_i hdst
          have hdst := Decidable.not_not.mp hdst
          have hnp : c.dest ≠ parentBroker := by rw [hdst, kself]; exact hid
          have hcore := hag rfl hnp
          have ho : ¬ ownExec f cmd := by
            intro ho
            have hq := hr
            unfold coordinator at hq
            simp only [ho.1, ho.2.1, ho.2.2, and_self, if_true] at hq
            cases hq
          have hm : f.tc.modeAfter cmd = f.tc.iterating := by unfold modeAfter; rw [if_neg (show ¬ (_ ∧ _ ∧ _) from ho)]
          rcases hh.2 rfl with h | h | h
          · simp only at h
            subst h
            exact go .execCheck (Or.inl rfl) he (congrArg Core.info hcore) ((congrArg Core.iterating hcore).trans hm.symm)
          · simp only at h
            subst h
            exact go .timeCheck (Or.inr rfl) he (congrArg Core.info hcore) ((congrArg Core.iterating hcore).trans hm.symm)
          · exact absurd h hnp
      · exact absurd he k1

end Fed
end Verif
