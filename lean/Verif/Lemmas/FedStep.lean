import Verif.Lemmas.Table
/-! What processing one message can do to a federate in executing mode. -/
namespace Verif
namespace Fed
open TC Deps

/-- the federate has left executing mode -/
def left (s : FedState) : Prop := s = .terminating ∨ s = .errored ∨ s = .finished

/-- The federate's own "enter executing mode" command; only the API sends it. -/
def ownExec (f : Fed) (cmd : Msg) : Prop := cmd.action = .execRequest ∧ cmd.source = f.tc.self ∧ cmd.indicator = true

/-- Effect of processing a message while executing. -/
inductive Effect (f : Fed) (cmd : Msg) (r : Fed × MPR) : Prop
  | quiet (hs : r.1.state = .executing) (hm : r.1.mode = f.mode) (hc : r.1.tc.core = f.tc.core)
      (hb : isBlockCmd cmd.action = false → r.1.tc.blocks = f.tc.blocks)
      (hp : r.2 = .continueProcessing ∨ r.2 = .delayMessage ∨ r.2 = .userReturn)
      (hd : DR f.tc.self cmd (f.tc.tableAfter cmd) r.1.tc.deps)
  | attempt (g : TC) (trig : FedId) (hm : f.mode = false) (hg : g.core = f.tc.core)
      (hb : isBlockCmd cmd.action = false → g.blocks = f.tc.blocks)
      (hs : r.1.state = .executing) (ht : r.1.tc = (g.checkTimeGrant trig).1)
      (hp : r.2 = (g.checkTimeGrant trig).2) (hm' : r.1.mode = (g.checkTimeGrant trig).2.returnable)
      (hd : DR f.tc.self cmd (f.tc.tableAfter cmd) g.deps)
  | forced (ha : cmd.action = .forceTimeGrant) (hs : r.1.state = .executing) (hm : r.1.mode = true)
      (ht : f.tc.granted ≤ cmd.actionTime)
      (hc : r.1.tc.core = { f.tc.core with granted := cmd.actionTime, grantBase := r.1.tc.grantBase })
      (hgb : r.1.tc.grantBase = cmd.actionTime ∨ (r.1.tc.grantBase = f.tc.grantBase ∧ cmd.actionTime = f.tc.granted))
      (hb : r.1.tc.blocks = f.tc.blocks) (hp : r.2 = .nextStep)
      (hd : r.1.tc.deps = f.tc.deps)
  | exit (hs : left r.1.state)
      (hc : r.1.tc.core = f.tc.core ∨ r.1.tc.core = { f.tc.core with granted := maxVal, grantBase := maxVal })

theorem core_localError (tc : TC) : tc.localError.core = tc.core ∨
    tc.localError.core = { tc.core with granted := maxVal, grantBase := maxVal } := by
  unfold localError
  split
  · exact Or.inl rfl
  · right
    simp only
    split
    · rfl
    · split
      · split
        · exact (core_processTimeMessage _ _ (by simp)).1
        · rfl
      · rfl
    · split
      · exact (core_processTimeMessage _ _ (by simp)).1
      · rfl

/-- `checkTimeGrant` results are never `reprocessMessage` or the like -/
theorem grant_results (g : TC) (t : FedId) :
    (g.checkTimeGrant t).2 = .continueProcessing ∨ (g.checkTimeGrant t).2 = .nextStep ∨
    (g.checkTimeGrant t).2 = .iterating ∨ (g.checkTimeGrant t).2 = .halted := by
  rcases checkTimeGrant_outcome g t with ⟨h, _⟩ | ⟨h, _⟩ | ⟨h, _⟩ | ⟨h, _⟩ <;> simp [h]

theorem grant_continue_core (g : TC) (t : FedId) (h : (g.checkTimeGrant t).2 = .continueProcessing) :
    (g.checkTimeGrant t).1.core = g.core := by
  rcases checkTimeGrant_outcome g t with ⟨h', _⟩ | ⟨h', hc⟩ | ⟨h', _⟩ | ⟨h', _⟩
  · rw [h] at h'; cases h'
  · exact hc
  · rw [h] at h'; cases h'
  · rw [h] at h'; cases h'

/-- Effect of the coordinator alone, while executing. -/
inductive CEffect (f : Fed) (cmd : Msg) (r : Fed × MPR × Msg) : Prop
  | base (h : Effect f cmd (r.1, r.2.1)) (hc : r.2.2 = cmd) (hr : r.2.1 ≠ .reprocessMessage)
  | recheck (hs : r.1.state = .executing) (hm : f.mode = false) (hm' : r.1.mode = false) (hc : r.1.tc.core = f.tc.core)
      (hb : isBlockCmd cmd.action = true) (hp : r.2.1 = .reprocessMessage)
      (hq : r.2.2 = { cmd with action := .timeCheck }) (hd : r.1.tc.deps = f.tc.deps)
  | leave (hs : r.1.state = .terminating) (hc : r.1.tc.core = f.tc.core) (hp : r.2.1 = .reprocessMessage)
      (hq : r.2.2 = { cmd with dest := parentBroker })
      (ha : cmd.action = .disconnectFed ∨ cmd.action = .disconnect)

theorem tryGrant_effect (f f0 : Fed) (cmd : Msg) (t : FedId) (hs : f0.state = .executing)
    (hm : f0.mode = f.mode) (hc : f0.tc.core = f.tc.core)
    (hb : isBlockCmd cmd.action = false → f0.tc.blocks = f.tc.blocks)
    (hd : DR f.tc.self cmd (f.tc.tableAfter cmd) f0.tc.deps) : Effect f cmd (f0.tryGrant t) := by
  unfold tryGrant
  cases h : f0.mode with
  | false =>
    simp only [Bool.not_false, if_true, Bool.false_or]
    exact .attempt f0.tc t (hm.symm.trans h) hc hb hs rfl rfl rfl hd
  | true =>
    simp only [Bool.not_true, Bool.false_eq_true, if_false]
    exact .quiet hs hm hc hb (Or.inl rfl) hd

theorem tryGrant_result (f : Fed) (t : FedId) : (f.tryGrant t).2 ≠ .reprocessMessage := by
  unfold tryGrant
  split
  · rcases grant_results f.tc t with h | h | h | h <;> simp [h]
  · simp

theorem execCheck_executing (f : Fed) (cmd : Msg) (h : f.state = .executing) :
    f.execCheck cmd = (f, .continueProcessing) := by
  unfold execCheck; rw [if_pos (by rw [h]; decide)]

theorem ptm (f : Fed) (cmd : Msg) (hf : cmd.action ≠ .forceTimeGrant) :
    (f.tc.processTimeMessage cmd).1.core = f.tc.core := (core_processTimeMessage _ _ hf).1

theorem core_addDependency (tc : TC) (g : FedId) :
    (tc.addDependency g).1.core = tc.core ∧ (tc.addDependency g).1.blocks = tc.blocks := ⟨rfl, rfl⟩

theorem core_setConn (tc : TC) (g : FedId) (c : Conn) :
    (tc.setConn g c).core = tc.core ∧ (tc.setConn g c).blocks = tc.blocks := by
  unfold setConn; split <;> exact ⟨rfl, rfl⟩

theorem core_processDependencyUpdate (tc : TC) (cmd : Msg) :
    (tc.processDependencyUpdate cmd).core = tc.core ∧ (tc.processDependencyUpdate cmd).blocks = tc.blocks := by
  have key : ∀ r : TC × Bool, r.1.core = tc.core ∧ r.1.blocks = tc.blocks →
      ((if r.2 then
        let tc := if cmd.child then r.1.setConn cmd.source .child else r.1
        let tc := if cmd.parent then tc.setConn cmd.source .parent else tc
        if cmd.counter > 0 then
          { tc with deps := tc.deps.modify cmd.source (fun d => { d with timingVersion := toI8 cmd.counter }) }
        else tc
      else r.1 : TC).core = tc.core) ∧ ((if r.2 then
        let tc := if cmd.child then r.1.setConn cmd.source .child else r.1
        let tc := if cmd.parent then tc.setConn cmd.source .parent else tc
        if cmd.counter > 0 then
          { tc with deps := tc.deps.modify cmd.source (fun d => { d with timingVersion := toI8 cmd.counter }) }
        else tc
      else r.1 : TC).blocks = tc.blocks) := by
    intro r hr
    have h1 : (if cmd.child then r.1.setConn cmd.source .child else r.1 : TC).core = tc.core ∧
        (if cmd.child then r.1.setConn cmd.source .child else r.1 : TC).blocks = tc.blocks := by
      split
      · exact ⟨(core_setConn _ _ _).1.trans hr.1, (core_setConn _ _ _).2.trans hr.2⟩
      · exact hr
    generalize (if cmd.child then r.1.setConn cmd.source .child else r.1 : TC) = t1 at h1 ⊢
    have h2 : (if cmd.parent then t1.setConn cmd.source .parent else t1 : TC).core = tc.core ∧
        (if cmd.parent then t1.setConn cmd.source .parent else t1 : TC).blocks = tc.blocks := by
      split
      · exact ⟨(core_setConn _ _ _).1.trans h1.1, (core_setConn _ _ _).2.trans h1.2⟩
      · exact h1
    simp only
    generalize (if cmd.parent then t1.setConn cmd.source .parent else t1 : TC) = t2 at h2 ⊢
    split
    · split
      · exact h2
      · exact h2
    · exact hr
  unfold processDependencyUpdate
  apply key
  split <;> exact ⟨rfl, rfl⟩

/-- the command is looked at by the table, or asks for the current time -/
def heardOrAsked (self : FedId) (cmd : Msg) : Bool := hears self cmd || cmd.action == .requestCurrentTime || isBlockCmd cmd.action

theorem tableAfter_same (tc : TC) (cmd : Msg) (h : ¬ (isDepUpdate cmd.action ∧ cmd.dest = tc.self))
    (h' : hears tc.self cmd = false) : tc.tableAfter cmd = tc.deps := by
  unfold tableAfter; rw [if_neg h, h']; rfl

theorem hears_notUpdate (self : FedId) (cmd : Msg) (h : hears self cmd = true) : isDepUpdate cmd.action = false := by
  unfold hears at h
  unfold isDepUpdate
  split at h <;> simp_all

theorem dr_heard (tc : TC) (cmd : Msg) (h : heardOrAsked tc.self cmd = true) :
    DR tc.self cmd (tc.tableAfter cmd) (tc.processTimeMessage cmd).1.deps := by
  unfold heardOrAsked at h
  by_cases hh : hears tc.self cmd = true
  · have hu := hears_notUpdate _ _ hh
    have hn : cmd.action ≠ .requestCurrentTime := by
      intro e; unfold hears at hh; rw [e] at hh; cases hh
    rw [deps_processTimeMessage _ _ hn]
    unfold tableAfter
    rw [if_neg (by rw [hu]; simp), if_pos hh]
    exact .refl
  · by_cases hb : isBlockCmd cmd.action = true
    · have : tc.tableAfter cmd = tc.deps := tableAfter_same _ _
        (by unfold isBlockCmd at hb; cases hc : cmd.action <;> simp [hc, isDepUpdate] at hb ⊢) (by simpa using hh)
      rw [this, deps_processTimeMessage _ _ (by intro e; rw [e] at hb; cases hb)]
      have : tableMsg tc.deps cmd = tc.deps := by
        unfold isBlockCmd at hb; unfold tableMsg; cases hc : cmd.action <;> simp [hc] at hb ⊢
      rw [this]; exact .refl
    have ha : cmd.action = .requestCurrentTime := by simpa [hh, hb] using h
    have : tc.tableAfter cmd = tc.deps := tableAfter_same _ _ (by simp [ha, isDepUpdate]) (by simpa using hh)
    rw [this]
    rcases deps_processTimeMessage' tc cmd with e | ⟨_, e⟩ <;> rw [e]
    · exact .again .refl (Or.inr (Or.inr ha))
    · exact .refl

theorem coordinator_effect (f : Fed) (cmd : Msg) (hs : f.state = .executing) (ho : ¬ ownExec f cmd) :
    CEffect f cmd (f.coordinator cmd) := by
  have hq : f.tc.tableAfter cmd = f.tc.deps → ∀ p, (p = .continueProcessing ∨ p = .delayMessage ∨ p = .userReturn) →
      CEffect f cmd (f, p, cmd) := fun ht p hp =>
    .base (.quiet hs rfl rfl (fun _ => rfl) hp (by rw [ht]; exact .refl)) rfl
      (by rcases hp with h | h | h <;> simp [h])
  have hr : heardOrAsked f.tc.self cmd = true → DR f.tc.self cmd (f.tc.tableAfter cmd) (f.tc.processTimeMessage cmd).1.deps :=
    dr_heard f.tc cmd
  have hq' : cmd.action ≠ .forceTimeGrant → heardOrAsked f.tc.self cmd = true → ∀ p, (p = .continueProcessing ∨ p = .delayMessage ∨ p = .userReturn) →
      CEffect f cmd ({ f with tc := (f.tc.processTimeMessage cmd).1 }, p, cmd) := fun hf hh p hp =>
    .base (.quiet hs rfl (ptm f cmd hf) (fun h => (core_processTimeMessage _ _ hf).2 h) hp (hr hh)) rfl
      (by rcases hp with h | h | h <;> simp [h])
  have hg : cmd.action ≠ .forceTimeGrant → heardOrAsked f.tc.self cmd = true → ∀ t, CEffect f cmd
      ((Fed.tryGrant { f with tc := (f.tc.processTimeMessage cmd).1 } t).1,
       (Fed.tryGrant { f with tc := (f.tc.processTimeMessage cmd).1 } t).2, cmd) := fun hf hh t =>
    .base (tryGrant_effect f { f with tc := (f.tc.processTimeMessage cmd).1 } cmd t hs rfl (ptm f cmd hf)
      (fun h => (core_processTimeMessage _ _ hf).2 h) (hr hh)) rfl (tryGrant_result _ _)
  unfold coordinator
  simp only
  split <;> rename_i ha
  · -- userReturn
    split
    · exact hq (tableAfter_same f.tc cmd (by simp [isDepUpdate, ha]) (by clear hq hr hq' hg; simp only [hears, ha] <;> grind)) _ (by simp)
    · exact hq (tableAfter_same f.tc cmd (by simp [isDepUpdate, ha]) (by clear hq hr hq' hg; simp only [hears, ha] <;> grind)) _ (by simp)
  iterate 4
    · have hb : isBlockCmd cmd.action = true := by rw [ha]; rfl
      have hf : cmd.action ≠ .forceTimeGrant := by rw [ha]; decide
      split
      · rename_i h
        split
        · rename_i h'; rw [hs] at h'; cases h'
        · exact .recheck hs (by simpa using h.2) (by show f.mode = false; simpa using h.2) (ptm f cmd hf) hb rfl rfl (by
            show (f.tc.processTimeMessage cmd).1.deps = _
            rw [deps_processTimeMessage _ _ (by rw [ha]; decide)]; unfold tableMsg; rw [ha])
      · exact hq' hf (by clear hq hr hq' hg; simp only [heardOrAsked, hears, isBlockCmd, ha] <;> grind) _ (by simp)
  · -- initGrant
    rw [if_neg (by rw [hs]; decide)]
    exact hq (tableAfter_same f.tc cmd (by simp [isDepUpdate, ha]) (by clear hq hr hq' hg; simp only [hears, ha] <;> grind)) _ (by simp)
  · -- execRequest
    have hf : cmd.action ≠ .forceTimeGrant := by rw [ha]; decide
    split
    · rename_i h; exact absurd ⟨ha, h.1, h.2⟩ ho
    · split
      · exact hq' hf (by clear hq hr hq' hg; simp only [heardOrAsked, hears, isBlockCmd, ha] <;> grind) _ (by simp)
      · exact hq' hf (by clear hq hr hq' hg; simp only [heardOrAsked, hears, isBlockCmd, ha] <;> grind) _ (by simp)
      · rw [execCheck_executing { f with tc := (f.tc.processTimeMessage cmd).1 } _ hs]; exact hq' hf (by clear hq hr hq' hg; simp only [heardOrAsked, hears, isBlockCmd, ha] <;> grind) _ (by simp)
  · -- execGrant
    have hf : cmd.action ≠ .forceTimeGrant := by rw [ha]; decide
    split
    · exact hq' hf (by clear hq hr hq' hg; simp only [heardOrAsked, hears, isBlockCmd, ha] <;> grind) _ (by simp)
    · exact hq' hf (by clear hq hr hq' hg; simp only [heardOrAsked, hears, isBlockCmd, ha] <;> grind) _ (by simp)
    · rw [execCheck_executing { f with tc := (f.tc.processTimeMessage cmd).1 } _ hs]; exact hq' hf (by clear hq hr hq' hg; simp only [heardOrAsked, hears, isBlockCmd, ha] <;> grind) _ (by simp)
  · -- execCheck
    rw [execCheck_executing _ _ hs]; exact hq (tableAfter_same f.tc cmd (by simp [isDepUpdate, ha]) (by clear hq hr hq' hg; simp only [hears, ha] <;> grind)) _ (by simp)
  · -- terminateImmediately
    exact .base (.exit (Or.inr (Or.inr rfl)) (Or.inl rfl)) rfl (by simp)
  · -- stop
    exact .base (.exit (Or.inr (Or.inr rfl)) (Or.inl (core_disconnect _).1)) rfl (by simp)
  · -- disconnectFedAck
    split
    · refine .base (.exit (Or.inr (Or.inr rfl)) (Or.inl ?_)) rfl (by simp)
      show (ite _ _ _ : TC).core = _
      split
      · exact (core_disconnect _).1
      · rfl
    · exact hq (tableAfter_same f.tc cmd (by simp [isDepUpdate, ha]) (by clear hq hr hq' hg; simp only [hears, ha] <;> grind)) _ (by simp)
  iterate 2
    · have hf : cmd.action ≠ .forceTimeGrant := by rw [ha]; decide
      exact hq' hf (by clear hq hr hq' hg; simp only [heardOrAsked, hears, isBlockCmd, ha] <;> grind) _ (by simp)
  · -- disconnectFed
    have hf : cmd.action ≠ .forceTimeGrant := by rw [ha]; decide
    split
    · split
      · exact .leave rfl (core_disconnect _).1 rfl rfl (Or.inl ha)
      · exact hq (tableAfter_same f.tc cmd (by simp [isDepUpdate, ha]) (by clear hq hr hq' hg; simp only [hears, ha] <;> grind)) _ (by simp)
    · split
      · rename_i h; exact absurd hs h
      · split
        · exact hg hf (by clear hq hr hq' hg; simp only [heardOrAsked, hears, isBlockCmd, ha] <;> grind) _
        · refine hq' hf (by clear hq hr hq' hg; simp only [heardOrAsked, hears, isBlockCmd, ha] <;> grind) _ ?_
          split <;> simp
  · -- disconnect
    have hf : cmd.action ≠ .forceTimeGrant := by rw [ha]; decide
    split
    · split
      · exact .leave rfl (core_disconnect _).1 rfl rfl (Or.inr ha)
      · exact hq (tableAfter_same f.tc cmd (by simp [isDepUpdate, ha]) (by clear hq hr hq' hg; simp only [hears, ha] <;> grind)) _ (by simp)
    · split
      · rename_i h; exact absurd hs h
      · split
        · exact hg hf (by clear hq hr hq' hg; simp only [heardOrAsked, hears, isBlockCmd, ha] <;> grind) _
        · refine hq' hf (by clear hq hr hq' hg; simp only [heardOrAsked, hears, isBlockCmd, ha] <;> grind) _ ?_
          split <;> simp
  iterate 3
    · have hf : cmd.action ≠ .forceTimeGrant := by rw [ha]; decide
      split
      · exact hq' hf (by clear hq hr hq' hg; simp only [heardOrAsked, hears, isBlockCmd, ha] <;> grind) _ (by simp)
      · exact hq' hf (by clear hq hr hq' hg; simp only [heardOrAsked, hears, isBlockCmd, ha] <;> grind) _ (by simp)
      · split
        · rename_i h; exact absurd hs h
        · exact hg hf (by clear hq hr hq' hg; simp only [heardOrAsked, hears, isBlockCmd, ha] <;> grind) _
  iterate 2
    · have hf : cmd.action ≠ .forceTimeGrant := by rw [ha]; decide
      split
      · exact hq' hf (by clear hq hr hq' hg; simp only [heardOrAsked, hears, isBlockCmd, ha] <;> grind) _ (by simp)
      · exact hq' hf (by clear hq hr hq' hg; simp only [heardOrAsked, hears, isBlockCmd, ha] <;> grind) _ (by simp)
      · split
        · rename_i h; exact absurd hs h
        · exact hg hf (by clear hq hr hq' hg; simp only [heardOrAsked, hears, isBlockCmd, ha] <;> grind) _
  · -- timeCheck
    split
    · rename_i h; exact absurd hs h
    · exact .base (tryGrant_effect f f cmd _ hs rfl rfl (fun _ => rfl)
        (by rw [tableAfter_same f.tc cmd (by simp [isDepUpdate, ha]) (by simp [hears, ha])]; exact .refl)) rfl (tryGrant_result _ _)
  · -- forceTimeGrant
    split
    · exact hq (tableAfter_same f.tc cmd (by simp [isDepUpdate, ha]) (by clear hq hr hq' hg; simp only [hears, ha] <;> grind)) _ (by simp)
    · rename_i h
      have h : f.tc.granted ≤ cmd.actionTime := by omega
      refine .base ?_ rfl (by simp)
      have e : f.tc.processTimeMessage cmd = if f.tc.granted < cmd.actionTime then
          (((TC.transmit { f.tc with
            granted := cmd.actionTime, grantBase := cmd.actionTime
            lastSend := { f.tc.lastSend with next := cmd.actionTime, Te := cmd.actionTime
                                             minDe := cmd.actionTime, state := .granted } }
            { action := .timeGrant, source := f.tc.self, actionTime := cmd.actionTime }).1), .processed)
          else (f.tc, .notProcessed) := by
        unfold processTimeMessage; rw [ha]
      rw [e]
      by_cases hlt : f.tc.granted < cmd.actionTime
      · rw [if_pos hlt]
        exact .forced ha hs rfl h rfl (Or.inl rfl) rfl rfl rfl
      · rw [if_neg hlt]
        have : cmd.actionTime = f.tc.granted := by omega
        exact .forced ha hs rfl h (by rw [this]; rfl) (Or.inr ⟨rfl, this⟩) rfl rfl rfl
  iterate 3
    · -- errors
      have hf : cmd.action ≠ .forceTimeGrant := by rw [ha]; decide
      split
      · split
        · refine .base (.exit (Or.inr (Or.inl rfl)) ?_) rfl (by simp)
          show (ite _ _ _ : TC).core = _ ∨ (ite _ _ _ : TC).core = _
          split
          · exact core_localError _
          · exact Or.inl rfl
        · exact hq (tableAfter_same f.tc cmd (by simp [isDepUpdate, ha]) (by clear hq hr hq' hg; simp only [hears, ha] <;> grind)) _ (by simp)
      · split
        · exact hq' hf (by clear hq hr hq' hg; simp only [heardOrAsked, hears, isBlockCmd, ha] <;> grind) _ (by simp)
        · exact hq' hf (by clear hq hr hq' hg; simp only [heardOrAsked, hears, isBlockCmd, ha] <;> grind) _ (by simp)
        · split
          · rename_i h; exact absurd hs h
          · exact hg hf (by clear hq hr hq' hg; simp only [heardOrAsked, hears, isBlockCmd, ha] <;> grind) _
  iterate 6
    · -- dependency updates
      have hf : cmd.action ≠ .forceTimeGrant := by rw [ha]; decide
      split
      · rename_i hdest
        exact .base (.quiet hs rfl (core_processDependencyUpdate _ _).1 (fun _ => (core_processDependencyUpdate _ _).2) (Or.inl rfl)
          (by
            have : f.tc.tableAfter cmd = (f.tc.processDependencyUpdate cmd).deps := by
              unfold tableAfter; rw [if_pos ⟨by rw [ha]; rfl, hdest⟩]
            rw [this]; exact .refl)) rfl (by simp)
      · rename_i hdest
        exact hq (tableAfter_same f.tc cmd (fun h => hdest h.2) (by clear hq hr hq' hg; simp only [hears, ha] <;> grind)) _ (by simp)
  · refine hq (tableAfter_same f.tc cmd ?_ ?_) _ (by simp)
    · clear hq hr hq' hg
      unfold isDepUpdate
      cases hc : cmd.action <;> simp_all
    · clear hq hr hq' hg
      unfold hears
      cases hc : cmd.action <;> simp_all

theorem secondSwitch_executing (f g : Fed) (cmd : Msg) (hs : g.state = .executing) (hm : g.mode = f.mode)
    (hc : g.tc.core = f.tc.core) (hb : isBlockCmd cmd.action = false → g.tc.blocks = f.tc.blocks)
    (hdr : DR f.tc.self cmd (f.tc.tableAfter cmd) g.tc.deps)
    (ho : ¬ ownExec f cmd) : ∃ x, secondSwitch g cmd = some x ∧ Effect f cmd x := by
  have hself : g.tc.self = f.tc.self := congrArg Core.self hc
  have hq : ∃ x, some (g, MPR.continueProcessing) = some x ∧ Effect f cmd x :=
    ⟨_, rfl, .quiet hs hm hc hb (Or.inl rfl) hdr⟩
  have hd : (cmd.action = .disconnectFed ∨ cmd.action = .disconnect) → cmd.action ≠ .forceTimeGrant → isBlockCmd cmd.action = false →
     ∃ x, (if cmd.source = g.tc.self then
      if g.state ≠ .finished ∧ g.state ≠ .terminating then
        some (({ g with tc := (g.tc.disconnect).send { cmd with dest := parentBroker },
                        state := if g.state ≠ .errored then .terminating else g.state } : Fed), MPR.continueProcessing)
      else some (g, MPR.continueProcessing)
    else
      match (g.tc.processTimeMessage cmd).2 with
      | .delayProcessing => some (({ g with tc := (g.tc.processTimeMessage cmd).1 } : Fed), .delayMessage)
      | .notProcessed => some (({ g with tc := (g.tc.processTimeMessage cmd).1 } : Fed), .continueProcessing)
      | _ =>
        if g.state ≠ .executing then some (({ g with tc := (g.tc.processTimeMessage cmd).1 } : Fed), .continueProcessing)
        else if !g.mode then
          if ((g.tc.processTimeMessage cmd).1.checkTimeGrant).2.returnable then
            some (({ g with tc := ((g.tc.processTimeMessage cmd).1.checkTimeGrant).1, mode := true } : Fed),
              ((g.tc.processTimeMessage cmd).1.checkTimeGrant).2)
          else some (({ g with tc := ((g.tc.processTimeMessage cmd).1.checkTimeGrant).1 } : Fed), .continueProcessing)
        else some (({ g with tc := (g.tc.processTimeMessage cmd).1 } : Fed), .continueProcessing)) = some x ∧
      Effect f cmd x := by
    intro hdc hf hnb
    have hdr2 : DR f.tc.self cmd (f.tc.tableAfter cmd) (g.tc.processTimeMessage cmd).1.deps := by
      rw [deps_processTimeMessage _ _ (by rcases hdc with e | e <;> rw [e] <;> decide)]
      exact .again hdr (by rcases hdc with e | e <;> simp [e])
    have hpc : (g.tc.processTimeMessage cmd).1.core = f.tc.core := (core_processTimeMessage _ _ hf).1.trans hc
    have hpb : (g.tc.processTimeMessage cmd).1.blocks = f.tc.blocks :=
      ((core_processTimeMessage _ _ hf).2 hnb).trans (hb hnb)
    split
    · split
      · refine ⟨_, rfl, .exit (Or.inl ?_) (Or.inl ((core_disconnect _).1.trans hc))⟩
        show (ite _ _ _ : FedState) = _
        rw [if_pos (by rw [hs]; decide)]
      · exact hq
    · split
      · exact ⟨_, rfl, .quiet hs hm hpc (fun _ => hpb) (Or.inr (Or.inl rfl)) hdr2⟩
      · exact ⟨_, rfl, .quiet hs hm hpc (fun _ => hpb) (Or.inl rfl) hdr2⟩
      · rw [if_neg (by rw [hs]; decide)]
        cases hgm : g.mode with
        | true =>
          simp only [Bool.not_true, Bool.false_eq_true, if_false]
          exact ⟨_, rfl, .quiet hs (hgm.symm.trans hm) hpc (fun _ => hpb) (Or.inl rfl) hdr2⟩
        | false =>
          simp only [Bool.not_false, if_true]
          split
          · rename_i hr
            exact ⟨_, rfl, .attempt _ _ (hm.symm.trans hgm) hpc (fun _ => hpb) hs rfl rfl hr.symm hdr2⟩
          · rename_i hr
            have hcont : ((g.tc.processTimeMessage cmd).1.checkTimeGrant).2 = .continueProcessing := by
              rcases grant_results (g.tc.processTimeMessage cmd).1 invalidFed with h | h | h | h
              · exact h
              · rw [h] at hr; exact absurd rfl hr
              · rw [h] at hr; exact absurd rfl hr
              · rw [h] at hr; exact absurd rfl hr
            refine ⟨_, rfl, .attempt _ _ (hm.symm.trans hgm) hpc (fun _ => hpb) hs rfl hcont.symm ?_ hdr2⟩
            rw [hcont]; rfl
  unfold secondSwitch
  split <;> rename_i ha
  · rw [if_neg (by rw [hself]; intro h; exact ho ⟨ha, h.1, h.2⟩)]
    exact hq
  · exact hd (Or.inl ha) (by rw [ha]; decide) (by rw [ha]; rfl)
  · exact hd (Or.inr ha) (by rw [ha]; decide) (by rw [ha]; rfl)
  · exact hq

theorem secondSwitch_left (f g : Fed) (cmd : Msg) (hs : left g.state)
    (hc : g.tc.core = f.tc.core ∨ g.tc.core = { f.tc.core with granted := maxVal, grantBase := maxVal })
    (ho : ¬ ownExec f cmd) : ∃ x, secondSwitch g cmd = some x ∧ Effect f cmd x := by
  have hself : g.tc.self = f.tc.self := by
    rcases hc with hc | hc <;> exact congrArg Core.self hc
  have hq : ∃ x, some (g, MPR.continueProcessing) = some x ∧ Effect f cmd x := ⟨_, rfl, .exit hs hc⟩
  have hp : ∀ t : TC, t.core = g.tc.core → t.core = f.tc.core ∨
      t.core = { f.tc.core with granted := maxVal, grantBase := maxVal } := by
    intro t ht; rw [ht]; exact hc
  unfold secondSwitch
  split <;> rename_i ha
  · rw [if_neg (by rw [hself]; intro h; exact ho ⟨ha, h.1, h.2⟩)]
    exact hq
  iterate 2
    · have hf : cmd.action ≠ .forceTimeGrant := by rw [ha]; decide
      split
      · split
        · refine ⟨_, rfl, .exit ?_ (hp _ (core_disconnect _).1)⟩
          show left (ite _ _ _)
          split
          · exact Or.inl rfl
          · exact hs
        · exact hq
      · simp only
        have hne : g.state ≠ .executing := by
          rintro h; rw [h] at hs; rcases hs with h | h | h <;> cases h
        split
        · exact ⟨_, rfl, .exit hs (hp _ (core_processTimeMessage _ _ hf).1)⟩
        · exact ⟨_, rfl, .exit hs (hp _ (core_processTimeMessage _ _ hf).1)⟩
        · rw [if_pos hne]
          exact ⟨_, rfl, .exit hs (hp _ (core_processTimeMessage _ _ hf).1)⟩
  · exact hq

theorem stateChange_executing (o : FedState) (g : Fed) (ho : o = .executing) (hs : g.state = .executing ∨ left g.state) :
    stateChange o g = (g, false) := by
  unfold stateChange
  rcases hs with hs | hs | hs | hs
  · rw [if_pos (by rw [ho, hs])]
  all_goals (rw [if_neg (by rw [ho, hs]; decide)]; simp [hs])

/-- One round of `processActionMessage`, when the coordinator does not ask for reprocessing. -/
theorem processN_base (n : Nat) (f g : Fed) (cmd : Msg) (p : MPR) (hs : f.state = .executing) (ho : ¬ ownExec f cmd)
    (hr : f.coordinator cmd = (g, p, cmd)) (he : Effect f cmd (g, p)) (hp : p ≠ .reprocessMessage) :
    Effect f cmd (processN (n + 1) f cmd) := by
  unfold processN
  simp only [hr]
  have hst : g.state = .executing ∨ left g.state := by
    cases he with
    | quiet h => exact Or.inl h
    | attempt _ _ _ _ _ h => exact Or.inl h
    | forced _ h => exact Or.inl h
    | exit h => exact Or.inr h
  rw [stateChange_executing _ _ hs hst]
  simp only [Bool.false_eq_true, if_false]
  split
  · -- continueProcessing
    have : ∃ x, secondSwitch g cmd = some x ∧ Effect f cmd x := by
      cases he with
      | quiet h1 h2 h3 h4 _ h6 => exact secondSwitch_executing f g cmd h1 h2 h3 h4 h6 ho
      | attempt t trig h1 h2 h3 h4 h5 h6 h7 h8 =>
        simp only at h4 h5 h6 h7
        refine secondSwitch_executing f g cmd h4 (by rw [h7, ← h6, h1]; rfl) ?_ ?_ ?_ ho
        · rw [h5]; exact (grant_continue_core _ _ h6.symm).trans h2
        · intro hb; rw [h5]; exact (checkTimeGrant_blocks _ _).trans (h3 hb)
        · rw [h5]
          have := ds_checkTimeGrant t trig
          rw [show t.self = f.tc.self from congrArg Core.self h2] at this
          exact h8.trans (this.dr cmd)
      | forced _ _ _ _ _ _ _ h => cases h
      | exit h1 h2 => exact secondSwitch_left f g cmd h1 h2 ho
    obtain ⟨x, hx, hx'⟩ := this
    rw [hx]; exact hx'
  · exact absurd rfl hp
  · exact he

/-- **What one message can do** to an executing federate. -/
theorem process_effect (f : Fed) (cmd : Msg) (hs : f.state = .executing) (ho : ¬ ownExec f cmd)
    (hid : f.tc.self ≠ parentBroker) :
    Effect f cmd (f.process cmd) := by
  have hce := coordinator_effect f cmd hs ho
  generalize hr : f.coordinator cmd = r at hce
  obtain ⟨g, p, c⟩ := r
  cases hce with
  | base h hc hp =>
    simp only at h hc hp
    subst hc
    exact processN_base 3 f g c p hs ho hr h hp
  | recheck h1 h2 h3 h4 h5 h6 h7 h8 =>
    simp only at h1 h3 h4 h6 h7 h8
    have htab : f.tc.tableAfter cmd = f.tc.deps := tableAfter_same _ _
      (by unfold isBlockCmd at h5; cases hc : cmd.action <;> simp [hc, isDepUpdate] at h5 ⊢)
      (by unfold isBlockCmd at h5; unfold hears; cases hc : cmd.action <;> simp [hc] at h5 ⊢)
    have htab2 : g.tc.tableAfter c = f.tc.deps := (tableAfter_same _ _ (by simp [h7, isDepUpdate]) (by simp [h7, hears])).trans h8
    have hself : g.tc.self = f.tc.self := congrArg Core.self h4
    have hconv : ∀ ds, DR g.tc.self c (g.tc.tableAfter c) ds → DR f.tc.self cmd (f.tc.tableAfter cmd) ds := by
      intro ds h
      rw [htab2, hself] at h
      rw [htab]
      induction h with
      | refl => exact .refl
      | again _ ha => rw [h7] at ha; rcases ha with e | e | e <;> cases e
      | bye _ c hc ha ih => exact .bye ih c hc ha
      | iterTime _ t ih => exact .iterTime ih t
      | iterExec _ ih => exact .iterExec ih
    subst h6
    unfold process processN
    simp only [hr]
    rw [stateChange_executing _ _ hs (Or.inl h1)]
    simp only [Bool.false_eq_true, if_false]
    have hnb : isBlockCmd cmd.action = false → False := by rw [h5]; intro h; cases h
    split
    · exact .quiet h1 (by show g.mode = _; rw [h2, h3]) h4 (fun h => absurd h (by rw [h5]; decide)) (Or.inl rfl)
        (by rw [htab]; show DR _ _ _ g.tc.deps; rw [h8]; exact .refl)
    · -- timeCheck on g
      have ho' : ¬ ownExec g c := by intro h; rw [h7] at h; cases h.1
      have hce2 := coordinator_effect g c h1 ho'
      have ha : c.action = .timeCheck := by rw [h7]
      have hx : Effect g c (processN 3 g c) := by
        generalize hr2 : g.coordinator c = r2 at hce2
        obtain ⟨g2, p2, c2⟩ := r2
        cases hce2 with
        | base h hc hp =>
          simp only at h hc hp
          subst hc
          exact processN_base 2 g g2 c2 p2 h1 ho' hr2 h hp
        | recheck _ _ _ _ hb => rw [ha] at hb; cases hb
        | leave _ _ _ _ h => rw [ha] at h; rcases h with h | h <;> cases h
      generalize processN 3 g c = z at hx
      cases hx with
      | quiet a1 a2 a3 a4 a5 a6 =>
        exact .quiet a1 (by rw [a2, h3, h2]) (a3.trans h4) (fun h => (hnb h).elim) a5 (hconv _ a6)
      | attempt t tr a1 a2 a3 a4 a5 a6 a7 a8 =>
        exact .attempt t tr h2 (a2.trans h4) (fun h => (hnb h).elim) a4 a5 a6 a7 (hconv _ a8)
      | forced a => rw [ha] at a; cases a
      | exit a1 a2 => exact .exit a1 (by rw [h4] at a2; exact a2)
  | leave h1 h2 h3 h4 h5 =>
    simp only at h1 h2 h3 h4
    subst h3
    unfold process processN
    simp only [hr]
    rw [stateChange_executing _ _ hs (Or.inr (Or.inl h1))]
    simp only [Bool.false_eq_true, if_false]
    split
    · exact .exit (Or.inl h1) (Or.inl h2)
    · -- the own id is never the parent broker id
      rename_i h
      have e : g.tc.self = f.tc.self := congrArg Core.self h2
      rw [h4, e] at h
      exact absurd (fun h' => hid h'.symm) h

end Fed
end Verif
