import Verif.Lemmas.Blocks
/-! The dependency table after a whole event, in every state of the federate. -/
namespace Verif
namespace Fed
open TC Deps

theorem ds_tryGrant (f : Fed) (t : FedId) : DS f.tc.self f.tc.deps (f.tryGrant t).1.tc.deps := by
  unfold tryGrant
  split
  · exact ds_checkTimeGrant _ _
  · exact .refl

theorem ds_execCheck (f : Fed) (cmd : Msg) : DS f.tc.self f.tc.deps (f.execCheck cmd).1.tc.deps := by
  unfold execCheck
  split
  · exact .refl
  · split
    · simp only
      have h := ds_checkExecEntry f.tc (if cmd.action = .execRequest then cmd.source else invalidFed)
      split
      · exact h
      · exact h
      · show DS _ _ (TC.deps (if _ then _ else _))
        split
        · rw [deps_sendUpdatedExecRequest]; exact h
        · exact h
      · exact h
    · exact .refl

theorem self_processTimeMessage (tc : TC) (cmd : Msg) : (tc.processTimeMessage cmd).1.self = tc.self := by
  by_cases h : cmd.action = .forceTimeGrant
  · unfold processTimeMessage; rw [h]; simp only; split <;> rfl
  · exact congrArg Core.self (core_processTimeMessage tc cmd h).1

theorem dr_coordinator (f : Fed) (cmd : Msg) :
    DR f.tc.self cmd (f.tc.tableAfter cmd) (f.coordinator cmd).1.tc.deps := by
  have hn : ¬ (isDepUpdate cmd.action ∧ cmd.dest = f.tc.self) → hears f.tc.self cmd = false →
      ∀ ds, DS f.tc.self f.tc.deps ds → DR f.tc.self cmd (f.tc.tableAfter cmd) ds := by
    intro h1 h2 ds h; rw [tableAfter_same _ _ h1 h2]; exact h.dr cmd
  have hp : heardOrAsked f.tc.self cmd = true → DR f.tc.self cmd (f.tc.tableAfter cmd) (f.tc.processTimeMessage cmd).1.deps :=
    dr_heard f.tc cmd
  have hs := self_processTimeMessage f.tc cmd
  have hg : heardOrAsked f.tc.self cmd = true → ∀ t, DR f.tc.self cmd (f.tc.tableAfter cmd)
      (({ f with tc := (f.tc.processTimeMessage cmd).1 } : Fed).tryGrant t).1.tc.deps := fun h t => by
    have := (ds_tryGrant ({ f with tc := (f.tc.processTimeMessage cmd).1 } : Fed) t).dr cmd
    rw [show ({ f with tc := (f.tc.processTimeMessage cmd).1 } : Fed).tc.self = f.tc.self from hs] at this
    exact (hp h).trans this
  have hec : heardOrAsked f.tc.self cmd = true → DR f.tc.self cmd (f.tc.tableAfter cmd)
      (({ f with tc := (f.tc.processTimeMessage cmd).1 } : Fed).execCheck cmd).1.tc.deps := fun h => by
    have := (ds_execCheck ({ f with tc := (f.tc.processTimeMessage cmd).1 } : Fed) cmd).dr cmd
    rw [show ({ f with tc := (f.tc.processTimeMessage cmd).1 } : Fed).tc.self = f.tc.self from hs] at this
    exact (hp h).trans this
  unfold coordinator
  simp only
  split <;> rename_i ha
  · exact hn (by simp [ha, isDepUpdate]) (by simp [ha, hears]) _ .refl
  iterate 4
    · have hh : heardOrAsked f.tc.self cmd = true := by simp [heardOrAsked, isBlockCmd, ha]
      split
      · split
        · exact hp hh
        · split <;> exact hp hh
      · exact hp hh
  · refine hn (by simp [ha, isDepUpdate]) (by simp [ha, hears]) _ ?_
    split
    · split
      · show DS _ _ (TC.deps (if _ then _ else _))
        split <;> exact .refl
      · show DS _ _ (TC.deps (if _ then _ else _))
        split <;> exact .refl
    · exact .refl
  · split
    · rename_i h
      refine hn (by simp [ha, isDepUpdate]) (by simp [ha, hears, h]) _ ?_
      rw [deps_enteringExecMode]; exact .refl
    · rename_i h
      have hh : heardOrAsked f.tc.self cmd = true := by
        clear hn hp hs hg hec; simp only [heardOrAsked, hears, ha]; grind
      split
      · exact hp hh
      · exact hp hh
      · exact hec hh
  · have hh : heardOrAsked f.tc.self cmd = true := by simp [heardOrAsked, hears, ha]
    split
    · exact hp hh
    · exact hp hh
    · exact hec hh
  · exact hn (by simp [ha, isDepUpdate]) (by simp [ha, hears]) _ (ds_execCheck _ _)
  · exact hn (by simp [ha, isDepUpdate]) (by simp [ha, hears]) _ .refl
  · exact hn (by simp [ha, isDepUpdate]) (by simp [ha, hears]) _ (deps_disconnect _)
  · refine hn (by simp [ha, isDepUpdate]) (by simp [ha, hears]) _ ?_
    split
    · show DS _ _ (TC.deps (if _ then _ else _))
      split
      · exact deps_disconnect _
      · exact .refl
    · exact .refl
  iterate 2
    · exact hp (by simp [heardOrAsked, hears, ha])
  iterate 2
    · split
      · rename_i h
        refine hn (by simp [ha, isDepUpdate]) (by simp [ha, hears, h]) _ ?_
        split
        · exact deps_disconnect _
        · exact .refl
      · rename_i h
        have hh : heardOrAsked f.tc.self cmd = true := by simp [heardOrAsked, hears, ha, h]
        split
        · exact hp hh
        · split
          · exact hg hh _
          · exact hp hh
  iterate 3
    · have hh : heardOrAsked f.tc.self cmd = true := by simp [heardOrAsked, hears, ha]
      split
      · exact hp hh
      · exact hp hh
      · split
        · exact hp hh
        · exact hg hh _
  iterate 2
    · have hh : heardOrAsked f.tc.self cmd = true := by simp [heardOrAsked, hears, ha]
      split
      · exact hp hh
      · exact hp hh
      · split
        · split <;> exact hp hh
        · exact hg hh _
  · refine hn (by simp [ha, isDepUpdate]) (by simp [ha, hears]) _ ?_
    split
    · split <;> exact .refl
    · exact ds_tryGrant _ _
  · refine hn (by simp [ha, isDepUpdate]) (by simp [ha, hears]) _ ?_
    split
    · exact .refl
    · show DS _ _ (f.tc.processTimeMessage cmd).1.deps
      rw [deps_processTimeMessage _ _ (by rw [ha]; decide)]
      unfold tableMsg; rw [ha]; exact .refl
  iterate 3
    · split
      · rename_i h
        refine hn (by simp [ha, isDepUpdate]) (by clear hn hp hs hg hec; simp only [hears, ha] <;> grind) _ ?_
        split
        · show DS _ _ (TC.deps (if _ then _ else _))
          split
          · exact deps_localError _
          · exact .refl
        · exact .refl
      · rename_i h
        first
        | exact absurd (Or.inl trivial) h
        | (have hh : heardOrAsked f.tc.self cmd = true := by
            clear hn hp hs hg hec; simp only [heardOrAsked, hears, ha] at h ⊢ ; grind
           split
           · exact hp hh
           · exact hp hh
           · split
             · exact hp hh
             · exact hg hh _)
  iterate 6
    · split
      · rename_i hdest
        have : f.tc.tableAfter cmd = (f.tc.processDependencyUpdate cmd).deps := by
          unfold tableAfter; rw [if_pos ⟨by rw [ha]; rfl, hdest⟩]
        rw [this]; exact .refl
      · rename_i hdest
        exact hn (fun h => hdest h.2) (by simp [ha, hears]) _ .refl
  · refine hn ?_ ?_ _ .refl
    · clear hn hp hs hg hec
      unfold isDepUpdate
      cases hc : cmd.action <;> simp_all
    · clear hn hp hs hg hec
      unfold hears
      cases hc : cmd.action <;> simp_all

theorem deps_stateChange (s : FedState) (f : Fed) : (stateChange s f).1.tc.deps = f.tc.deps := by
  unfold stateChange
  split
  · rfl
  · split
    · split
      · rfl
      · unfold enterInitialization; simp only; split <;> rfl
    · rfl
    · rfl

theorem dr_secondSwitch (f : Fed) (cmd : Msg) (x : Fed × MPR) (hx : secondSwitch f cmd = some x) :
    DR f.tc.self cmd f.tc.deps x.1.tc.deps := by
  unfold secondSwitch at hx
  split at hx <;> rename_i ha
  · split at hx
    · cases hx
    · cases hx; exact .refl
  iterate 2
    · have hp : DR f.tc.self cmd f.tc.deps (f.tc.processTimeMessage cmd).1.deps := by
        rw [deps_processTimeMessage _ _ (by rw [ha]; decide)]
        exact .again .refl (by simp [ha])
      have hs := self_processTimeMessage f.tc cmd
      have hg : ∀ t, DR f.tc.self cmd f.tc.deps ((f.tc.processTimeMessage cmd).1.checkTimeGrant t).1.deps := by
        intro t
        have := (ds_checkTimeGrant (f.tc.processTimeMessage cmd).1 t).dr cmd
        rw [hs] at this
        exact hp.trans this
      split at hx
      · split at hx
        · cases hx; exact (deps_disconnect _).dr cmd
        · cases hx; exact .refl
      · simp only at hx
        split at hx
        · cases hx; exact hp
        · cases hx; exact hp
        · split at hx
          · cases hx; exact hp
          · split at hx
            · split at hx
              · cases hx; exact hg _
              · cases hx; exact hg _
            · cases hx; exact hp
  · cases hx; exact .refl

theorem self_coordinator (f : Fed) (cmd : Msg) (hct : cmd.actionTime ≤ maxVal) : (f.coordinator cmd).1.tc.self = f.tc.self := by
  by_cases hs : f.state = .executing
  · by_cases ho : ownExec f cmd
    · unfold coordinator
      simp only [ho.1, ho.2.1, ho.2.2, and_self, if_true]
      unfold enteringExecMode
      repeat' split
      all_goals (try rfl)
      all_goals (simp only; repeat' split)
      all_goals rfl
    · have h := coordinator_effect f cmd hs ho
      generalize f.coordinator cmd = r at h
      cases h with
      | base h =>
        cases h with
        | quiet _ _ hc => exact congrArg Core.self hc
        | attempt g t _ hg _ _ ht =>
          simp only at ht
          rw [ht]
          rcases checkTimeGrant_outcome g t with ⟨_, _, _, h⟩ | ⟨_, h⟩ | ⟨_, _, _, _, _, h⟩ | ⟨_, _, _, _, _, h⟩
          · exact (congrArg Core.self h).trans (congrArg Core.self hg)
          · exact (congrArg Core.self h).trans (congrArg Core.self hg)
          · exact (congrArg Core.self h).trans (congrArg Core.self hg)
          · rw [show (g.checkTimeGrant t).1.self = (g.checkTimeGrant t).1.core.self from rfl, h]
            split <;> exact congrArg Core.self hg
        | forced _ _ _ _ hc => exact congrArg Core.self hc
        | exit _ hc => rcases hc with hc | hc <;> exact congrArg Core.self hc
      | recheck _ _ _ hc => exact congrArg Core.self hc
      | leave _ hc => exact congrArg Core.self hc
  · exact (coordinator_other f cmd hs hct).keep.self

theorem self_stateChange (s : FedState) (f : Fed) : (stateChange s f).1.tc.self = f.tc.self := by
  unfold stateChange
  split
  · rfl
  · split
    · split
      · rfl
      · unfold enterInitialization; simp only; split <;> rfl
    · rfl
    · rfl

/-- the command handed back by the coordinator -/
def Handed (cmd : Msg) (r : Fed × MPR × Msg) : Prop :=
  (r.2.1 = .continueProcessing → r.2.2 = cmd) ∧
  (r.2.1 = .reprocessMessage → r.2.2 = { cmd with action := .execCheck } ∨ r.2.2 = { cmd with action := .timeCheck } ∨
    r.2.2.dest = parentBroker)

theorem coordinator_handed (f : Fed) (cmd : Msg) : Handed cmd (f.coordinator cmd) := by
  have hg : ∀ (g : Fed) t, Handed cmd ((g.tryGrant t).1, (g.tryGrant t).2, cmd) :=
    fun g t => ⟨fun _ => rfl, fun h => absurd h (tryGrant_result _ _)⟩
  have hc : ∀ (g : Fed), Handed cmd ((g.execCheck cmd).1, (g.execCheck cmd).2, cmd) :=
    fun g => ⟨fun _ => rfl, fun h => absurd h (execCheck_result _ _)⟩
  unfold coordinator
  simp only
  repeat' split
  all_goals (try exact hg _ _)
  all_goals (try exact hc _)
  all_goals refine ⟨fun h => ?_, fun h => ?_⟩
  all_goals (try rfl)
  all_goals (try (simp at h; done))
  all_goals (try (simp only at h; split at h <;> simp at h; done))
  all_goals simp_all

theorem _root_.Verif.Deps.DR.ds {self : FedId} {cmd : Msg} {a b : Deps} (h : DR self cmd a b)
    (ha : cmd.action = .execCheck ∨ cmd.action = .timeCheck) : DS self a b := by
  induction h with
  | refl => exact .refl
  | again _ hb _ => rcases ha with ha | ha <;> simp [ha] at hb
  | bye _ c hc hb ih => exact .bye ih c hc hb
  | iterTime _ t ih => exact .iterTime ih t
  | iterExec _ ih => exact .iterExec ih

theorem tableAfter_check (tc : TC) (cmd : Msg) (ha : cmd.action = .execCheck ∨ cmd.action = .timeCheck) :
    tc.tableAfter cmd = tc.deps := by
  refine tableAfter_same _ _ ?_ ?_
  · rcases ha with ha | ha <;> simp [ha, isDepUpdate]
  · rcases ha with ha | ha <;> simp [ha, hears]

theorem ds_processN (n : Nat) (f : Fed) (cmd : Msg) (ha : cmd.action = .execCheck ∨ cmd.action = .timeCheck)
    (hct : cmd.actionTime ≤ maxVal) (hid : f.tc.self ≠ parentBroker) :
    DS f.tc.self f.tc.deps (processN n f cmd).1.tc.deps := by
  induction n generalizing f cmd with
  | zero => exact .refl
  | succ n ih =>
    have hd := (dr_coordinator f cmd).ds ha
    rw [tableAfter_check _ _ ha] at hd
    have hk := self_coordinator f cmd hct
    have hh := coordinator_handed f cmd
    have hs := self_stateChange f.state (f.coordinator cmd).1
    have ht := deps_stateChange f.state (f.coordinator cmd).1
    unfold processN
    simp only
    rw [← ht] at hd
    rw [hk] at hs
    split
    · exact hd
    · split
      · rename_i hp
        rw [hh.1 hp]
        split
        · rename_i x hx
          have := (dr_secondSwitch _ _ _ hx).ds ha
          rw [hs] at this
          exact hd.trans this
        · have := ih (stateChange f.state (f.coordinator cmd).1).1 { cmd with action := .execCheck } (Or.inl rfl) hct (by rw [hs]; exact hid)
          rw [hs] at this
          exact hd.trans this
      · rename_i hp
        split
        · exact hd
        · rename_i hdst
          have hdst := Decidable.not_not.mp hdst
          rw [hs] at hdst
          rcases hh.2 hp with h | h | h
          · have := ih (stateChange f.state (f.coordinator cmd).1).1 (f.coordinator cmd).2.2 (Or.inl (by rw [h])) (by rw [h]; exact hct) (by rw [hs]; exact hid)
            rw [hs] at this
            exact hd.trans this
          · have := ih (stateChange f.state (f.coordinator cmd).1).1 (f.coordinator cmd).2.2 (Or.inr (by rw [h])) (by rw [h]; exact hct) (by rw [hs]; exact hid)
            rw [hs] at this
            exact hd.trans this
          · exact absurd (hdst.symm.trans h) hid
      · exact hd

/-- the table after one command: the command itself is applied, then only the changes listed in `DR` -/
theorem dr_process (f : Fed) (cmd : Msg) (hct : cmd.actionTime ≤ maxVal) (hid : f.tc.self ≠ parentBroker) :
    DR f.tc.self cmd (f.tc.tableAfter cmd) (f.process cmd).1.tc.deps := by
  have hd := dr_coordinator f cmd
  have hk := self_coordinator f cmd hct
  have hh := coordinator_handed f cmd
  have hs := self_stateChange f.state (f.coordinator cmd).1
  have ht := deps_stateChange f.state (f.coordinator cmd).1
  unfold process processN
  simp only
  rw [← ht] at hd
  rw [hk] at hs
  split
  · exact hd
  · split
    · rename_i hp
      rw [hh.1 hp]
      split
      · rename_i x hx
        have := dr_secondSwitch _ _ _ hx
        rw [hs] at this
        exact hd.trans this
      · have := (ds_processN 3 (stateChange f.state (f.coordinator cmd).1).1 { cmd with action := .execCheck } (Or.inl rfl) hct (by rw [hs]; exact hid)).dr cmd
        rw [hs] at this
        exact hd.trans this
    · rename_i hp
      split
      · exact hd
      · rename_i hdst
        have hdst := Decidable.not_not.mp hdst
        rw [hs] at hdst
        rcases hh.2 hp with h | h | h
        · have := (ds_processN 3 (stateChange f.state (f.coordinator cmd).1).1 (f.coordinator cmd).2.2 (Or.inl (by rw [h])) (by rw [h]; exact hct) (by rw [hs]; exact hid)).dr cmd
          rw [hs] at this
          exact hd.trans this
        · have := (ds_processN 3 (stateChange f.state (f.coordinator cmd).1).1 (f.coordinator cmd).2.2 (Or.inr (by rw [h])) (by rw [h]; exact hct) (by rw [hs]; exact hid)).dr cmd
          rw [hs] at this
          exact hd.trans this
        · exact absurd (hdst.symm.trans h) hid
    · exact hd

end Fed
end Verif
