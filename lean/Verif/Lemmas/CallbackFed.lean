import Verif.Lemmas.FedRun
import Verif.Lemmas.Blocks
import Verif.Lemmas.TableRun
import Verif.Lemmas.Adv
import Verif.Model.Callback
/-! What one command can do to the state of a federate, in every state (used for C60). -/
namespace Verif
namespace Callback
open Fed TC

/-- state and mode before; state, mode and result after -/
inductive Ok (s : FedState) (m : Bool) : FedState → Bool → MPR → Prop
  | quiet (p : MPR) (h : p = .continueProcessing ∨ p = .delayMessage ∨ p = .userReturn) : Ok s m s m p
  | init (m' : Bool) (h : s = .created) (hm : m' = true) : Ok s m .initializing m' .nextStep
  | iter (h : s = .initializing) (h2 : m = false) : Ok s m s true .iterating
  | enter (h : s = .initializing) (h2 : m = false) : Ok s m .executing true .nextStep
  | grant (p : MPR) (h : s = .executing) (h2 : m = false) (h3 : p = .nextStep ∨ p = .iterating ∨ p = .halted) : Ok s m s true p
  | err (m' : Bool) (h : s ≠ .finished) (h2 : s ≠ .terminating) : Ok s m .errored m' .errorResult
  | term (m' : Bool) (h : s ≠ .finished) (h2 : s ≠ .terminating) : Ok s m .terminating m' .continueProcessing
  | fin (m' : Bool) : Ok s m .finished m' .halted

/-- commands a callback federate does not get: forced grants and iterations before initializing mode -/
def Plain (cmd : Msg) : Prop := cmd.action ≠ .forceTimeGrant ∧ ¬ (cmd.action = .initGrant ∧ cmd.iterationRequested = true)

/-- one pass through the coordinator -/
inductive COk (f : Fed) (cmd : Msg) (r : Fed × MPR × Msg) : Prop
  | done (h : Ok f.state f.mode r.1.state r.1.mode r.2.1) (hn : r.2.1 ≠ .reprocessMessage)
      (hc : r.2.1 = .continueProcessing → r.1.state = f.state ∧ r.1.mode = f.mode) (hq : r.2.2 = cmd)
      (he : f.state ≠ .executing → r.1.state = .executing → f.tc.dynamicJoining = false → r.1.tc.granted = 0)
  | again (hp : r.2.1 = .reprocessMessage) (hs : r.1.state = f.state) (hm : r.1.mode = f.mode)
      (ha : r.2.2.action = .execCheck ∨ r.2.2.action = .timeCheck) (ht : r.2.2.actionTime = cmd.actionTime)
      (hcore : r.1.tc.core = f.tc.core)
  | leave (hp : r.2.1 = .reprocessMessage) (hs : r.1.state = .terminating) (hd : r.2.2.dest = parentBroker)
      (h : f.state ≠ .finished) (h2 : f.state ≠ .terminating) (hself : r.1.tc.self = f.tc.self)

theorem tryGrant_ok (f : Fed) (g : TC) (trig : FedId) (hs : f.state = .executing) :
    let r := ({ f with tc := g } : Fed).tryGrant trig
    Ok f.state f.mode r.1.state r.1.mode r.2 ∧ r.2 ≠ .reprocessMessage ∧ (r.2 = .continueProcessing → r.1.state = f.state ∧ r.1.mode = f.mode) := by
  intro r
  have hr : r = ({ f with tc := g } : Fed).tryGrant trig := rfl
  unfold tryGrant at hr
  cases hm : f.mode
  · rw [if_pos (by simp [hm])] at hr
    dsimp only at hr
    rw [hr]
    rcases grant_results g trig with h | h | h | h
    · refine ⟨?_, by simp [h], fun _ => ⟨rfl, by simp [h, hm, MPR.returnable]⟩⟩
      simp only [h, hm, MPR.returnable, Bool.or_false]
      exact .quiet _ (Or.inl rfl)
    all_goals
      refine ⟨?_, by simp [h], fun k => by rw [h] at k; cases k⟩
      simp only [h, hm, MPR.returnable, Bool.or_true]
      exact .grant _ hs rfl (by simp)
  · rw [if_neg (by simp [hm])] at hr
    rw [hr]
    exact ⟨by simp only [hm]; exact .quiet _ (Or.inl rfl), by simp, fun _ => ⟨rfl, hm⟩⟩

theorem execCheck_ok (f : Fed) (cmd : Msg) :
    let r := f.execCheck cmd
    Ok f.state f.mode r.1.state r.1.mode r.2 ∧ r.2 ≠ .reprocessMessage ∧ (r.2 = .continueProcessing → r.1.state = f.state ∧ r.1.mode = f.mode) := by
  intro r
  have hr : r = f.execCheck cmd := rfl
  unfold execCheck at hr
  by_cases hs : f.state = .initializing
  · rw [if_neg (by simp [hs])] at hr
    cases hm : f.mode
    · rw [if_pos (by simp [hm])] at hr
      dsimp only at hr
      rcases checkExecEntry_result f.tc (if cmd.action = .execRequest then cmd.source else invalidFed) with h | h | h
      · rw [h] at hr; dsimp only at hr; rw [hr]
        exact ⟨.enter hs rfl, by simp, (fun k => by cases k)⟩
      · rw [h] at hr; dsimp only at hr; rw [hr]
        exact ⟨.iter hs rfl, by simp, (fun k => by cases k)⟩
      · rw [h] at hr; dsimp only at hr; rw [hr]
        exact ⟨by simp only [hm]; exact .quiet _ (Or.inl rfl), by simp, fun _ => ⟨rfl, hm⟩⟩
    · rw [if_neg (by simp [hm])] at hr
      rw [hr]
      exact ⟨by simp only [hm]; exact .quiet _ (Or.inl rfl), by simp, fun _ => ⟨rfl, hm⟩⟩
  · rw [if_pos hs] at hr
    rw [hr]
    exact ⟨.quiet _ (Or.inl rfl), by simp, fun _ => ⟨rfl, rfl⟩⟩

theorem execCheck_zero (f : Fed) (cmd : Msg) (hs : f.state ≠ .executing) (he : (f.execCheck cmd).1.state = .executing)
    (hj : f.tc.dynamicJoining = false) : (f.execCheck cmd).1.tc.granted = 0 := by
  unfold execCheck at he ⊢
  split at he
  · exact absurd he hs
  · rename_i h1
    rw [if_neg h1]
    split at he
    · rename_i h2
      rw [if_pos h2]
      dsimp only at he ⊢
      rcases checkExecEntry_result f.tc (if cmd.action = .execRequest then cmd.source else invalidFed) with hn | h | h
      · rw [hn]
        dsimp only
        generalize (if cmd.action = .execRequest then cmd.source else invalidFed) = t at hn
        unfold checkExecEntry at hn ⊢
        split at hn
        · cases hn
        · split at hn
          · cases hn
          · rename_i h1 h2
            rw [if_neg h1, if_neg h2]
            have hc := core_execDecision' { f.tc with needSendAll := false } f.tc.needSendAll
            have hj : (({ f.tc with needSendAll := false } : TC).execDecision f.tc.needSendAll).1.dynamicJoining = false :=
              (congrArg Core.dynamicJoining hc).trans hj
            dsimp only at hn ⊢
            rw [hn]
            unfold execContinue
            rw [if_neg (by simp)]
            exact (execGrant_next _ hj).1
      · rw [h] at he; exact absurd he hs
      · rw [h] at he; exact absurd he hs
    · exact absurd he hs

theorem coord_ok (f : Fed) (cmd : Msg) (hp : Plain cmd) (ho : ¬ ownExec f cmd) : COk f cmd (f.coordinator cmd) := by
  have quiet : ∀ (tc : TC) (p : MPR) , (p = .continueProcessing ∨ p = .delayMessage ∨ p = .userReturn) →
      COk f cmd ({ f with tc := tc }, p, cmd) := by
    intro tc p h
    exact .done (.quiet p h) (by rcases h with h | h | h <;> simp [h]) (fun _ => ⟨rfl, rfl⟩) rfl (fun a b => absurd b a)
  have grant : ∀ (g : TC) (t : FedId), f.state = .executing →
      COk f cmd ((({ f with tc := g } : Fed).tryGrant t).1, (({ f with tc := g } : Fed).tryGrant t).2, cmd) := by
    intro g t hs
    obtain ⟨h1, h2, h3⟩ := tryGrant_ok f g t hs
    exact .done h1 h2 h3 rfl (fun a => absurd hs a)
  have exec : ∀ (g : TC), g.core = f.tc.core → COk f cmd ((({ f with tc := g } : Fed).execCheck cmd).1, (({ f with tc := g } : Fed).execCheck cmd).2, cmd) := by
    intro g hg
    obtain ⟨h1, h2, h3⟩ := execCheck_ok { f with tc := g } cmd
    exact .done h1 h2 h3 rfl (fun a b d => execCheck_zero { f with tc := g } cmd a b ((congrArg Core.dynamicJoining hg).trans d))
  have core : (f.tc.processTimeMessage cmd).1.core = f.tc.core := (core_processTimeMessage f.tc cmd hp.1).1
  unfold coordinator
  dsimp only
  split
  all_goals try (rename_i ha)
  · exact quiet f.tc _ (by split <;> simp)
  iterate 4
    · split
      · split
        · exact .again rfl rfl rfl (Or.inl rfl) rfl core
        · split
          · exact .again rfl rfl rfl (Or.inr rfl) rfl core
          · exact quiet _ _ (Or.inl rfl)
      · exact quiet _ _ (Or.inl rfl)
  · split
    · rename_i hs
      split
      · rename_i hi
        exact absurd ⟨ha, hi⟩ hp.2
      · exact .done (.init _ hs rfl) (by simp) (fun k => by cases k) rfl (fun _ b => by cases b)
    · exact quiet f.tc _ (Or.inl rfl)
  · split
    · rename_i h; exact absurd ⟨ha, h.1, h.2⟩ ho
    · split
      · exact quiet _ _ (by simp)
      · exact quiet _ _ (by simp)
      · exact exec _ core
  · split
    · exact quiet _ _ (by simp)
    · exact quiet _ _ (by simp)
    · exact exec _ core
  · exact exec f.tc rfl
  · exact .done (.fin _) (by simp) (fun k => by cases k) rfl (fun _ b => by cases b)
  · exact .done (.fin _) (by simp) (fun k => by cases k) rfl (fun _ b => by cases b)
  · split
    · exact .done (.fin _) (by simp) (fun k => by cases k) rfl (fun _ b => by cases b)
    · exact quiet f.tc _ (Or.inl rfl)
  · exact quiet _ _ (Or.inl rfl)
  · exact quiet _ _ (Or.inl rfl)
  iterate 2
    · split
      · split
        · rename_i h
          exact .leave rfl rfl rfl h.1 h.2 (congrArg Core.self (core_disconnect f.tc).1)
        · exact quiet f.tc _ (Or.inl rfl)
      · split
        · exact quiet _ _ (by split <;> simp)
        · rename_i hs
          have hs : f.state = .executing := by simpa using hs
          split
          · exact grant _ _ hs
          · exact quiet _ _ (by split <;> simp)
  iterate 3
    · split
      · exact quiet _ _ (by simp)
      · exact quiet _ _ (by simp)
      · split
        · exact quiet _ _ (by simp)
        · rename_i hs
          exact grant _ _ (by simpa using hs)
  iterate 2
    · split
      · exact quiet _ _ (by simp)
      · exact quiet _ _ (by simp)
      · split
        · split
          · exact .again rfl rfl rfl (Or.inl rfl) rfl core
          · exact quiet _ _ (by simp)
        · rename_i hs
          exact grant _ _ (by simpa using hs)
  · split
    · split
      · exact .again rfl rfl rfl (Or.inl rfl) rfl rfl
      · exact quiet f.tc _ (by simp)
    · rename_i hs
      exact grant f.tc _ (by simpa using hs)
  · exact absurd ha hp.1
  iterate 3
    · split
      · split
        · rename_i h
          exact .done (.err _ h.1 h.2) (by simp) (fun k => by cases k) rfl (fun _ b => by cases b)
        · exact quiet f.tc _ (by simp)
      · split
        · exact quiet _ _ (by simp)
        · exact quiet _ _ (by simp)
        · split
          · exact quiet _ _ (by simp)
          · rename_i hs
            exact grant _ _ (by simpa using hs)
  iterate 6
    · have h : ∀ (c : Prop) [Decidable c] (x : TC), COk f cmd (if c then { f with tc := x } else f, .continueProcessing, cmd) := by
        intro c _ x
        split
        · exact quiet _ _ (by simp)
        · exact quiet f.tc _ (by simp)
      exact h _ _
  · exact quiet f.tc _ (by simp)

theorem stateChange_ok (f g : Fed) (p : MPR) (h : Ok f.state f.mode g.state g.mode p) :
    let s := stateChange f.state g
    (s.2 = true → Ok f.state f.mode s.1.state s.1.mode .errorResult) ∧
    (s.2 = false → s.1.state = g.state ∧ s.1.mode = g.mode ∧ s.1.tc.self = g.tc.self) := by
  intro s
  have hs : s = stateChange f.state g := rfl
  unfold stateChange at hs
  split at hs
  · rw [hs]; exact ⟨(fun k => by cases k), fun _ => ⟨rfl, rfl, rfl⟩⟩
  · rename_i hne
    split at hs
    · rename_i hg
      split at hs
      · rw [hs]
        refine ⟨fun _ => ?_, (fun k => by cases k)⟩
        rw [hg] at h hne
        have hc : f.state = .created := by
          generalize hS : f.state = S at h hne
          generalize g.mode = M at h
          generalize f.mode = M0 at h
          cases h <;> simp_all
        exact .err _ (by rw [hc]; decide) (by rw [hc]; decide)
      · rw [hs]
        refine ⟨(fun k => by cases k), fun _ => ⟨rfl, rfl, ?_⟩⟩
        show (enterInitialization g.tc).self = _
        unfold enterInitialization
        split <;> rfl
    · rw [hs]
      refine ⟨(fun k => by cases k), fun _ => ⟨rfl, rfl, ?_⟩⟩
      exact congrArg Core.self (core_updateTimeFactors g.tc).1
    · rw [hs]; exact ⟨(fun k => by cases k), fun _ => ⟨rfl, rfl, rfl⟩⟩

theorem second_ok (f : Fed) (cmd : Msg) (ho : ¬ ownExec f cmd) :
    ∃ x, secondSwitch f cmd = some x ∧ Ok f.state f.mode x.1.state x.1.mode x.2 := by
  unfold secondSwitch
  split
  · rename_i ha
    rw [if_neg (fun h => ho ⟨ha, h.1, h.2⟩)]
    exact ⟨_, rfl, .quiet _ (Or.inl rfl)⟩
  iterate 2
    · split
      · split
        · rename_i h
          refine ⟨_, rfl, ?_⟩
          dsimp only
          split
          · exact .term _ h.1 h.2
          · exact .quiet _ (Or.inl rfl)
        · exact ⟨_, rfl, .quiet _ (Or.inl rfl)⟩
      · dsimp only
        split
        · exact ⟨_, rfl, .quiet _ (by simp)⟩
        · exact ⟨_, rfl, .quiet _ (by simp)⟩
        · split
          · exact ⟨_, rfl, .quiet _ (by simp)⟩
          · rename_i hs
            have hs : f.state = .executing := by simpa using hs
            split
            · rename_i hm
              have hm : f.mode = false := by simpa using hm
              split
              · rename_i hr
                refine ⟨_, rfl, ?_⟩
                rw [hm]
                refine .grant _ hs rfl ?_
                rcases grant_results (f.tc.processTimeMessage cmd).1 invalidFed with h | h | h | h
                · rw [h] at hr; cases hr
                all_goals simp [h]
              · exact ⟨_, rfl, .quiet _ (by simp)⟩
            · exact ⟨_, rfl, .quiet _ (by simp)⟩
  · exact ⟨_, rfl, .quiet _ (Or.inl rfl)⟩

theorem processN_ok (n : Nat) (f : Fed) (cmd : Msg) (hp : Plain cmd) (ho : ¬ ownExec f cmd) (hself : f.tc.self ≠ parentBroker)
    (hct : cmd.actionTime ≤ maxVal) :
    Ok f.state f.mode (processN n f cmd).1.state (processN n f cmd).1.mode (processN n f cmd).2 := by
  induction n generalizing f cmd with
  | zero => exact .quiet _ (Or.inl rfl)
  | succ n ih =>
    have hc := coord_ok f cmd hp ho
    have hself' := self_coordinator f cmd hct
    unfold processN
    generalize f.coordinator cmd = r at hc hself'
    obtain ⟨g, p, c⟩ := r
    dsimp only at hc hself' ⊢
    cases hc with
    | done h hn hcont hq _ =>
      dsimp only at h hn hcont hq
      obtain ⟨h1, h2⟩ := stateChange_ok f g p h
      cases hb : (stateChange f.state g).2
      · obtain ⟨e1, e2, e3⟩ := h2 hb
        simp only [Bool.false_eq_true, if_false]
        split
        · obtain ⟨k1, k2⟩ := hcont rfl
          subst hq
          obtain ⟨x, hx, hx2⟩ := second_ok (stateChange f.state g).1 c (fun k => ho ⟨k.1, by rw [k.2.1, e3, hself'], k.2.2⟩)
          rw [hx]
          dsimp only
          rw [e1, e2, k1, k2] at hx2
          exact hx2
        · exact absurd rfl hn
        · rw [e1, e2]; exact h
      · rw [if_pos rfl]
        exact h1 hb
    | again hp' hs hm ha ht _ =>
      dsimp only at hp' hs hm ha ht
      subst hp'
      rw [stateChange_same f g (Or.inl hs)]
      simp only [Bool.false_eq_true, if_false]
      split
      · show Ok f.state f.mode g.state g.mode _
        rw [hs, hm]; exact .quiet _ (Or.inl rfl)
      · have := ih g c ⟨by rcases ha with h | h <;> rw [h] <;> decide, (fun k => by rcases ha with h | h <;> rw [h] at k <;> cases k.1)⟩
          (fun k => by rcases ha with h | h <;> rw [k.1] at h <;> cases h) (by rw [hself']; exact hself) (by rw [ht]; exact hct)
        rw [hs, hm] at this
        exact this
    | leave hp' hs hd h h2 hse =>
      dsimp only at hp' hs hd hse
      subst hp'
      rw [stateChange_same f g (Or.inr (Or.inl hs))]
      simp only [Bool.false_eq_true, if_false]
      rw [if_pos (by rw [hd, hse]; exact fun k => hself k.symm)]
      show Ok f.state f.mode g.state g.mode _
      rw [hs]; exact .term _ h h2

theorem stateChange_granted (s : FedState) (g : Fed) : (stateChange s g).1.tc.granted = g.tc.granted := by
  unfold stateChange
  split
  · rfl
  · split
    · split
      · rfl
      · show (enterInitialization g.tc).granted = _
        unfold enterInitialization
        split <;> rfl
    · exact congrArg Core.granted (core_updateTimeFactors g.tc).1
    · rfl

theorem processN_zero (n : Nat) (f : Fed) (cmd : Msg) (hp : Plain cmd) (ho : ¬ ownExec f cmd) (hself : f.tc.self ≠ parentBroker)
    (hct : cmd.actionTime ≤ maxVal) (hs : f.state ≠ .executing) (hj : f.tc.dynamicJoining = false)
    (he : (processN n f cmd).1.state = .executing) : (processN n f cmd).1.tc.granted = 0 := by
  induction n generalizing f cmd with
  | zero => exact absurd he hs
  | succ n ih =>
    have hc := coord_ok f cmd hp ho
    have hself' := self_coordinator f cmd hct
    unfold processN at he ⊢
    generalize f.coordinator cmd = r at hc hself' he
    obtain ⟨g, p, c⟩ := r
    dsimp only at hc hself' he ⊢
    cases hc with
    | done h hn hcont hq hz =>
      dsimp only at h hn hcont hq hz
      obtain ⟨h1, h2⟩ := stateChange_ok f g p h
      cases hb : (stateChange f.state g).2
      · rw [hb] at he
        obtain ⟨e1, e2, e3⟩ := h2 hb
        simp only [Bool.false_eq_true, if_false] at he ⊢
        split at he
        · obtain ⟨k1, k2⟩ := hcont rfl
          subst hq
          obtain ⟨x, hx, hx2⟩ := second_ok (stateChange f.state g).1 c (fun k => ho ⟨k.1, by rw [k.2.1, e3, hself'], k.2.2⟩)
          rw [hx] at he
          dsimp only at he
          exact absurd he (secondSwitch_notExec _ c (by rw [e1, k1]; exact hs) x hx)
        · exact absurd rfl hn
        · rw [stateChange_granted]
          exact hz hs (by rw [← e1]; exact he) hj
      · rw [hb, if_pos rfl] at he
        have := h1 hb
        rw [he] at this
        generalize f.state = S at this hs
        generalize f.mode = M at this
        generalize (stateChange _ g).1.mode = M' at this
        cases this <;> simp_all
    | again hp' hs' hm ha ht hcore =>
      dsimp only at hp' hs' hm ha ht hcore
      subst hp'
      rw [stateChange_same f g (Or.inl hs')] at he ⊢
      simp only [Bool.false_eq_true, if_false] at he ⊢
      split at he
      · exact absurd he (by rw [hs']; exact hs)
      · rename_i hd
        rw [if_neg hd]
        exact ih g c ⟨by rcases ha with h | h <;> rw [h] <;> decide, (fun k => by rcases ha with h | h <;> rw [h] at k <;> cases k.1)⟩
          (fun k => by rcases ha with h | h <;> rw [k.1] at h <;> cases h) (by rw [hself']; exact hself) (by rw [ht]; exact hct)
          (by rw [hs']; exact hs) ((congrArg Core.dynamicJoining hcore).trans hj) he
    | leave hp' hs' hd h h2 hse =>
      dsimp only at hp' hs' hd hse
      subst hp'
      rw [stateChange_same f g (Or.inr (Or.inl hs'))] at he
      simp only [Bool.false_eq_true, if_false] at he
      rw [if_pos (by rw [hd, hse]; exact fun k => hself k.symm)] at he
      rw [show ({ g with tc := g.tc.send c } : Fed).state = g.state from rfl, hs'] at he
      cases he

/-- one command of somebody else -/
theorem process_ok' (f : Fed) (cmd : Msg) (hp : Plain cmd) (ho : ¬ ownExec f cmd) (hself : f.tc.self ≠ parentBroker)
    (hct : cmd.actionTime ≤ maxVal) :
    Ok f.state f.mode (f.process cmd).1.state (f.process cmd).1.mode (f.process cmd).2 :=
  processN_ok 4 f cmd hp ho hself hct

/-- an own time request -/
theorem request_ok' (f : Fed) (t : Time) (it : IterReq) (nv nm : Time) (hself : f.tc.self ≠ parentBroker) (ht : t ≤ maxVal) :
    Ok f.state false (f.request t it nv nm).1.state (f.request t it nv nm).1.mode (f.request t it nv nm).2 := by
  unfold request
  have h4 := (timeRequest_fields f.tc t it nv nm).2.2.2.1
  exact process_ok' { f with tc := f.tc.timeRequest t it nv nm, mode := false } _ ⟨by simp, by simp⟩ (fun k => by cases k.1)
    (by show (f.tc.timeRequest t it nv nm).self ≠ _; rw [h4]; exact hself) ht

theorem self_entering (a : TC) (m : IterReq) : (a.enteringExecMode m).self = a.self := by
  unfold enteringExecMode
  dsimp only
  repeat' split
  all_goals first | rfl | exact congrArg Core.self (core_transmit _ _).1

/-- an own request for executing mode -/
theorem requestExec_ok' (f : Fed) (it : IterReq) (hself : f.tc.self ≠ parentBroker) :
    Ok f.state false (f.requestExec it).1.state (f.requestExec it).1.mode (f.requestExec it).2 := by
  unfold requestExec process
  generalize hm : setIterationFlags { action := .execRequest, source := f.tc.self, dest := f.tc.self, indicator := true } it = m
  have h1 : m.action = .execRequest := by rw [← hm]; cases it <;> rfl
  have h2 : m.source = f.tc.self := by rw [← hm]; cases it <;> rfl
  have h3 : m.indicator = true := by rw [← hm]; cases it <;> rfl
  have h4 : m.actionTime ≤ maxVal := by rw [← hm]; cases it <;> (show (0 : Int) ≤ maxVal; decide)
  obtain ⟨it', hco⟩ : ∃ it', f.coordinator m = ({ f with tc := f.tc.enteringExecMode it', mode := false }, .continueProcessing, m) := by
    unfold coordinator
    simp only [h1, h2, h3, and_self, if_true]
    exact ⟨_, rfl⟩
  unfold processN
  rw [hco]
  dsimp only
  rw [stateChange_same f { f with tc := f.tc.enteringExecMode it', mode := false } (Or.inl rfl)]
  simp only [Bool.false_eq_true, if_false]
  have hs : (f.tc.enteringExecMode it').self = f.tc.self := self_entering f.tc it'
  have h5 : secondSwitch { f with tc := f.tc.enteringExecMode it', mode := false } m = none := by
    unfold secondSwitch
    simp only [h1, h2, h3, hs, and_self, if_true]
  rw [h5]
  exact processN_ok 3 { f with tc := f.tc.enteringExecMode it', mode := false } { m with action := .execCheck } ⟨by simp, by simp⟩ (fun k => by cases k.1)
    (by show (f.tc.enteringExecMode it').self ≠ _; rw [hs]; exact hself) h4

end Callback
end Verif
