import Verif.Props.Grants
import Verif.Lemmas.EnterExec
/-! Iteration counting during entry to executing mode. -/
namespace Verif
namespace TC

/-- what counts for the iterations: counter, settings, requested iteration kind, joining mode -/
def cnt (tc : TC) : Int × TCOptions × IterReq × Bool := (tc.iteration, tc.info, tc.iterating, tc.dynamicJoining)

theorem cnt_of_core {a b : TC} (h : b.core = a.core) : b.cnt = a.cnt := by
  unfold cnt
  rw [show b.iteration = a.iteration from congrArg Core.iteration h, show b.info = a.info from congrArg Core.info h,
    show b.iterating = a.iterating from congrArg Core.iterating h,
    show b.dynamicJoining = a.dynamicJoining from congrArg Core.dynamicJoining h]

theorem cnt_processTimeMessage (tc : TC) (cmd : Msg) : (tc.processTimeMessage cmd).1.cnt = tc.cnt := by
  by_cases h : cmd.action = .forceTimeGrant
  · unfold processTimeMessage
    simp only [h]
    split <;> rfl
  · exact cnt_of_core (core_processTimeMessage tc cmd h).1

theorem cnt_disconnect (tc : TC) : tc.disconnect.cnt = tc.cnt := cnt_of_core (core_disconnect tc).1

theorem cnt_localError (tc : TC) : tc.localError.cnt = tc.cnt := by
  rcases Fed.core_localError tc with h | h
  · exact cnt_of_core h
  · exact cnt_of_core (a := { tc with granted := maxVal, grantBase := maxVal }) h

theorem cnt_sendUpdatedExecRequest (tc : TC) (a b : FedId) (c : Int) : (tc.sendUpdatedExecRequest a b c).cnt = tc.cnt := by
  unfold sendUpdatedExecRequest
  simp only
  split <;> rfl

theorem cnt_replyExec (tc : TC) (a b : FedId) : (tc.replyExec a b).cnt = tc.cnt := by
  unfold replyExec
  split
  · rfl
  · split
    · exact cnt_sendUpdatedExecRequest _ _ _ _
    · rfl

theorem cnt_execNotReady (tc : TC) (a : FedId) : (tc.execNotReady a).cnt = tc.cnt := by
  unfold execNotReady
  split
  · split
    · simp only
      split
      · exact cnt_sendUpdatedExecRequest _ _ _ _
      · exact cnt_replyExec _ _ _
    · rfl
  · rfl

theorem cnt_execContinue (tc : TC) (a : FedId) (s : Bool) (r : MPR) : (tc.execContinue a s r).cnt = tc.cnt := by
  unfold execContinue
  split
  · simp only
    split
    · exact cnt_sendUpdatedExecRequest _ _ _ _
    · split
      · split
        · exact cnt_sendUpdatedExecRequest _ _ _ _
        · exact cnt_replyExec _ _ _
      · rfl
  · rfl

theorem applyRestriction_answer (tc : TC) (c : RestrictionCheck) (r s : Bool) (ok : MPR) :
    (tc.applyRestriction c r s ok).2.2 = ok ∨ (tc.applyRestriction c r s ok).2.2 = .continueProcessing := by
  unfold applyRestriction
  repeat' split
  all_goals simp

theorem cnt_execDecision (tc : TC) (s : Bool) : (tc.execDecision s).1.cnt = tc.cnt ∧
    ((tc.execDecision s).2.2 = .continueProcessing ∨ (tc.execDecision s).2.2 = .nextStep ∨
     ((tc.execDecision s).2.2 = .iterating ∧ (tc.iterating = .forceIteration ∨
       (tc.iterating = .iterateIfNeeded ∧ tc.iteration < tc.info.maxIterations)))) := by
  unfold execDecision
  have ha : ∀ (c : RestrictionCheck) (b : Bool) (ok : MPR), (tc.applyRestriction c b s ok).1.cnt = tc.cnt :=
    fun c b ok => cnt_of_core (core_applyRestriction _ _ _ _ _).1
  split
  · split
    · exact ⟨rfl, by simp⟩
    · refine ⟨rfl, ?_⟩
      simp only
      split <;> simp
  · rename_i hi
    simp only [hi]
    split
    · exact ⟨rfl, by simp⟩
    · rename_i hn
      split
      · exact ⟨rfl, by simp; omega⟩
      · split
        · exact ⟨rfl, by simp⟩
        · refine ⟨ha _ _ _, ?_⟩
          rcases applyRestriction_answer tc (checkExecRestriction tc.deps tc.self tc.seq tc.info.waitForCurrent tc.info.restrictive) tc.info.restrictive s
            (if IterReq.iterateIfNeeded = IterReq.forceIteration then MPR.iterating else MPR.nextStep) with h | h <;> rw [h] <;> simp
  · rename_i hi
    simp only [hi]
    split
    · exact ⟨rfl, by simp⟩
    · rename_i hn
      split
      · exact ⟨rfl, by simp⟩
      · split
        · exact ⟨rfl, by simp⟩
        · refine ⟨ha _ _ _, ?_⟩
          rcases applyRestriction_answer tc (checkExecRestriction tc.deps tc.self tc.seq tc.info.waitForCurrent tc.info.restrictive) tc.info.restrictive s
            (if True then MPR.iterating else MPR.nextStep) with h | h <;> rw [h] <;> simp
  · exact ⟨rfl, by simp⟩

theorem cnt_execGrant (tc : TC) (r : MPR) :
    (r = .continueProcessing → (tc.execGrant r).cnt = tc.cnt) ∧
    (r = .nextStep → (tc.execGrant r).cnt = (0, tc.cnt.2)) ∧
    (r = .iterating → (tc.execGrant r).cnt.2 = tc.cnt.2 ∧ (tc.dynamicJoining = false → (tc.execGrant r).iteration = tc.iteration + 1)) := by
  refine ⟨?_, ?_, ?_⟩ <;> rintro rfl <;> unfold execGrant
  · split <;> rfl
  · split
    · rfl
    · have h := cnt_of_core (core_updateTimeFactors tc).1
      have h2 : tc.updateTimeFactors.cnt.2 = tc.cnt.2 := congrArg Prod.snd h
      show ((0 : Int), tc.updateTimeFactors.cnt.2) = _
      rw [h2]
  · split
    · exact ⟨rfl, fun _ => rfl⟩
    · rename_i h
      exact ⟨rfl, fun hd => absurd (by simpa using hd) h⟩

/-- the entry check and the counter -/
theorem cnt_checkExecEntry (tc : TC) (a : FedId) :
    ((tc.checkExecEntry a).2 = .continueProcessing ∧ (tc.checkExecEntry a).1.cnt = tc.cnt) ∨
    ((tc.checkExecEntry a).2 = .nextStep ∧ (tc.checkExecEntry a).1.cnt = (0, tc.cnt.2)) ∨
    ((tc.checkExecEntry a).2 = .iterating ∧ (tc.checkExecEntry a).1.cnt.2 = tc.cnt.2 ∧
      (tc.dynamicJoining = false → (tc.checkExecEntry a).1.iteration = tc.iteration + 1) ∧
      (tc.iterating = .forceIteration ∨ (tc.iterating = .iterateIfNeeded ∧ tc.iteration < tc.info.maxIterations))) := by
  unfold checkExecEntry
  split
  · exact Or.inl ⟨rfl, rfl⟩
  · split
    · exact Or.inl ⟨rfl, cnt_execNotReady _ _⟩
    · simp only
      obtain ⟨h1, h2⟩ := cnt_execDecision { tc with needSendAll := false } tc.needSendAll
      generalize ({ tc with needSendAll := false } : TC).execDecision tc.needSendAll = r at h1 h2
      have h1' : r.1.cnt = tc.cnt := h1
      obtain ⟨g1, g2, g3⟩ := cnt_execGrant r.1 r.2.2
      rw [cnt_execContinue]
      rcases h2 with h2 | h2 | ⟨h2, h3⟩
      · exact Or.inl ⟨h2, (g1 h2).trans h1'⟩
      · right; left; refine ⟨h2, ?_⟩; rw [g2 h2, h1']
      · right; right
        refine ⟨h2, (g3 h2).1.trans (by rw [h1']), fun hd => ?_, h3⟩
        have hc := cnt_execContinue (r.1.execGrant r.2.2) a r.2.1 r.2.2
        have : ((r.1.execGrant r.2.2).execContinue a r.2.1 r.2.2).iteration = (r.1.execGrant r.2.2).iteration := congrArg (·.1) hc
        rw [this, (g3 h2).2 (by rw [show r.1.dynamicJoining = tc.dynamicJoining from congrArg (·.2.2.2) h1']; exact hd)]
        rw [show r.1.iteration = tc.iteration from congrArg (·.1) h1']

theorem cnt_enteringExecMode (tc : TC) (m : IterReq) :
    (tc.enteringExecMode m).cnt = (tc.iteration, tc.info, (tc.enteringExecMode m).iterating, tc.dynamicJoining) ∧
    ((tc.enteringExecMode m).iterating = m ∨ (tc.enteringExecMode m).iterating = tc.iterating) := by
  unfold enteringExecMode
  split
  · exact ⟨rfl, by simp⟩
  · simp only
    repeat' split
    all_goals exact ⟨rfl, Or.inl rfl⟩
end TC
namespace Fed
open TC

/-- What an event does to the iteration count of a federate that is not executing; `it` is the iteration
request in force. -/
inductive Cnt (it : IterReq) (J : Prop) (f r : Fed) (p : MPR) : Prop
  | quiet (hs : r.state ≠ .executing) (hc : r.tc.iteration = f.tc.iteration) (hi : r.tc.info = f.tc.info)
      (hit : r.tc.iterating = it) (hd : ¬ J → r.tc.dynamicJoining = f.tc.dynamicJoining)
      (hp : p = .iterating → r.state ≠ .initializing)
  | again (hp : p = .iterating) (hf : f.state = .initializing) (hs : r.state = .initializing) (hm : r.mode = true)
      (hi : r.tc.info = f.tc.info) (hit : r.tc.iterating = it) (hd : ¬ J → r.tc.dynamicJoining = f.tc.dynamicJoining)
      (hc : ¬ J → f.tc.dynamicJoining = false → r.tc.iteration = f.tc.iteration + 1)
      (hw : it = .forceIteration ∨ (it = .iterateIfNeeded ∧ f.tc.iteration < f.tc.info.maxIterations))
  | enter (hp : p = .nextStep) (hf : f.state = .initializing) (hs : r.state = .executing) (hm : r.mode = true)
      (hi : r.tc.info = f.tc.info) (hit : r.tc.iterating = it) (hd : ¬ J → r.tc.dynamicJoining = f.tc.dynamicJoining)
      (hc : r.tc.iteration = 0)

theorem Cnt.trans {it : IterReq} {J : Prop} {f g r : Fed} {p q : MPR} (h : Cnt it J f g p) (hs : g.state ≠ .executing)
    (hp : p ≠ .iterating) (hk : g.state = f.state ∨ left g.state)
    (k : Cnt g.tc.iterating J g r q) : Cnt it J f r q := by
  have hl : left g.state → g.state ≠ .initializing := by
    rintro (e | e | e) <;> rw [e] <;> decide
  cases h with
  | again e => exact absurd e hp
  | enter _ _ e => exact absurd e hs
  | quiet a b c d e _ =>
    cases k with
    | quiet a' b' c' d' e' f' => exact .quiet a' (b'.trans b) (c'.trans c) (d'.trans d) (fun h => (e' h).trans (e h)) f'
    | again p1 p2 p3 p4 p5 p6 p7 p8 p9 =>
      have hf : f.state = .initializing := by
        rcases hk with h | h
        · rw [← h]; exact p2
        · exact absurd p2 (hl h)
      rw [d, b, c] at p9
      exact .again p1 hf p3 p4 (p5.trans c) (p6.trans d) (fun h => (p7 h).trans (e h)) (fun h h' => by rw [p8 h ((e h).trans h'), b]) p9
    | enter p1 p2 p3 p4 p5 p6 p7 p8 =>
      have hf : f.state = .initializing := by
        rcases hk with h | h
        · rw [← h]; exact p2
        · exact absurd p2 (hl h)
      exact .enter p1 hf p3 p4 (p5.trans c) (p6.trans d) (fun h => (p7 h).trans (e h)) p8

theorem Cnt.of_cnt {it : IterReq} {J : Prop} {f r : Fed} {p : MPR} (hs : r.state ≠ .executing) (hp : p ≠ .iterating)
    (h : r.tc.cnt = (f.tc.iteration, f.tc.info, it, f.tc.dynamicJoining)) : Cnt it J f r p :=
  .quiet hs (congrArg (·.1) h) (congrArg (·.2.1) h) (congrArg (·.2.2.1) h)
    (fun _ => congrArg (·.2.2.2) h)
    (fun e => absurd e hp)

theorem cnt_execCheck {J : Prop} (f : Fed) (cmd : Msg) (hs : f.state ≠ .executing) :
    Cnt f.tc.iterating J f (f.execCheck cmd).1 (f.execCheck cmd).2 := by
  unfold execCheck
  split
  · exact .of_cnt hs (by simp) rfl
  · rename_i hi
    have hi : f.state = .initializing := by simpa using hi
    split
    · simp only
      have h := cnt_checkExecEntry f.tc (if cmd.action = .execRequest then cmd.source else invalidFed)
      generalize f.tc.checkExecEntry (if cmd.action = .execRequest then cmd.source else invalidFed) = r at h
      rcases h with ⟨e, h⟩ | ⟨e, h⟩ | ⟨e, h, h2, h3⟩ <;> simp only [e]
      · refine .of_cnt hs (by simp) ?_
        simp only
        split
        · rw [cnt_sendUpdatedExecRequest]; exact h
        · exact h
      · exact .enter rfl hi rfl rfl (congrArg (·.2.1) h) (congrArg (·.2.2.1) h)
          (fun _ => congrArg (·.2.2.2) h) (congrArg (·.1) h)
      · have hd : r.1.dynamicJoining = f.tc.dynamicJoining := congrArg (·.2.2) h
        exact .again rfl hi hi rfl (congrArg (·.1) h) (congrArg (·.2.1) h) (fun _ => hd)
          (fun _ x => h2 x) h3
    · exact .of_cnt hs (by simp) rfl

/-- the federate is told to join a running federation (`INIT_GRANT` with one of the two joining flags) -/
def joins (cmd : Msg) : Prop := cmd.action = .initGrant ∧ (cmd.interrupted || cmd.dynamicJoin) = true

theorem Cnt.weaken {it : IterReq} {J K : Prop} {f r : Fed} {p : MPR} (h : Cnt it J f r p) (hj : J → K) : Cnt it K f r p := by
  cases h with
  | quiet a b c d e f' => exact .quiet a b c d (fun k => e (fun j => k (hj j))) f'
  | again a b c d e f' g h i => exact .again a b c d e f' (fun k => g (fun j => k (hj j))) (fun k => h (fun j => k (hj j))) i
  | enter a b c d e f' g h => exact .enter a b c d e f' (fun k => g (fun j => k (hj j))) h

theorem cnt_coordinator (f : Fed) (cmd : Msg) (hs : f.state ≠ .executing) :
    Cnt (f.tc.modeAfter cmd) (joins cmd) f (f.coordinator cmd).1 (f.coordinator cmd).2.1 := by
  by_cases ho : cmd.action = .execRequest ∧ cmd.source = f.tc.self ∧ cmd.indicator = true
  · unfold modeAfter
    rw [if_pos ho]
    unfold coordinator
    simp only [ho.1, ho.2.1, ho.2.2, and_self, if_true]
    exact .of_cnt hs (by simp) (cnt_enteringExecMode _ _).1
  have hmo : f.tc.modeAfter cmd = f.tc.iterating := by unfold modeAfter; rw [if_neg ho]
  rw [hmo]
  have hq : ∀ p, p ≠ .iterating → Cnt f.tc.iterating (joins cmd) f f p := fun p hp => .of_cnt hs hp rfl
  have hq' : ∀ p, p ≠ .iterating → Cnt f.tc.iterating (joins cmd) f { f with tc := (f.tc.processTimeMessage cmd).1 } p :=
    fun p hp => .of_cnt hs hp (cnt_processTimeMessage _ _)
  have hec : ∀ t : TC, t.cnt = f.tc.cnt → Cnt f.tc.iterating (joins cmd) f (({ f with tc := t } : Fed).execCheck cmd).1
      (({ f with tc := t } : Fed).execCheck cmd).2 := by
    intro t ht
    have := cnt_execCheck (J := joins cmd) { f with tc := t } cmd hs
    exact Cnt.trans (g := { f with tc := t }) (p := .continueProcessing) (.of_cnt hs (by simp) ht) hs (by simp) (Or.inl rfl) this
  have hexit : ∀ (s : FedState) (t : TC) p, t.cnt = f.tc.cnt → s ≠ .executing → p ≠ .iterating →
      Cnt f.tc.iterating (joins cmd) f { f with tc := t, state := s } p := fun s t p ht hn hp => .of_cnt hn hp ht
  unfold coordinator
  simp only
  split
  · exact hq _ (by split <;> simp)
  iterate 4
    · split
      · split
        · exact hq' _ (by simp)
        · exact hq' _ (by simp)
      · exact hq' _ (by simp)
  · -- initGrant
    split
    · rename_i ha hc
      have hj : ¬ joins cmd → (if (cmd.interrupted || cmd.dynamicJoin) = true then { f.tc with dynamicJoining := true }
          else f.tc).dynamicJoining = f.tc.dynamicJoining := by
        intro h
        rw [if_neg (fun e => h ⟨ha, e⟩)]
      split
      · refine .quiet hs ?_ ?_ ?_ hj (fun _ => by show f.state ≠ _; rw [hc]; decide)
        all_goals (simp only; split <;> rfl)
      · refine .quiet (by simp) ?_ ?_ ?_ hj (by simp)
        all_goals (simp only; split <;> rfl)
    · exact hq _ (by simp)
  · rename_i ha
    rw [if_neg (fun h => ho ⟨ha, h⟩)]
    split
    · exact hq' _ (by simp)
    · exact hq' _ (by simp)
    · exact hec _ (cnt_processTimeMessage _ _)
  · split
    · exact hq' _ (by simp)
    · exact hq' _ (by simp)
    · exact hec _ (cnt_processTimeMessage _ _)
  · exact hec _ rfl
  · exact hexit _ _ _ rfl (by decide) (by simp)
  · exact hexit _ _ _ (cnt_disconnect _) (by decide) (by simp)
  · split
    · refine hexit _ _ _ ?_ (by decide) (by simp)
      split
      · exact cnt_disconnect _
      · rfl
    · exact hq _ (by simp)
  · exact hq' _ (by simp)
  · exact hq' _ (by simp)
  iterate 2
    · split
      · split
        · exact hexit _ _ _ (cnt_disconnect _) (by decide) (by simp)
        · exact hq _ (by simp)
      · exact hq' _ (by split <;> simp)
  iterate 3
    · split
      · exact hq' _ (by simp)
      · exact hq' _ (by simp)
      · rw [if_pos hs]; exact hq' _ (by simp)
  iterate 2
    · split
      · exact hq' _ (by simp)
      · exact hq' _ (by simp)
      · rw [if_pos hs]; split <;> exact hq' _ (by simp)
  · rw [if_pos hs]; split <;> exact hq _ (by simp)
  · split
    · exact hq _ (by simp)
    · exact .of_cnt hs (by simp) (cnt_processTimeMessage _ _)
  iterate 3
    · split
      · split
        · refine hexit _ _ _ ?_ (by decide) (by simp)
          split
          · exact cnt_localError _
          · rfl
        · exact hq _ (by simp)
      · split
        · exact hq' _ (by simp)
        · exact hq' _ (by simp)
        · exact hq' _ (by simp)
  iterate 6
    · split
      · exact .of_cnt hs (by simp) (cnt_of_core (core_processDependencyUpdate _ _).1)
      · exact hq _ (by simp)
  · exact hq _ (by simp)

theorem cnt_secondSwitch {J : Prop} (f : Fed) (cmd : Msg) (hs : f.state ≠ .executing) (x : Fed × MPR)
    (hx : secondSwitch f cmd = some x) : Cnt f.tc.iterating J f x.1 x.2 := by
  have hq : ∀ p, p ≠ .iterating → Cnt f.tc.iterating J f f p := fun p hp => .of_cnt hs hp rfl
  have hq' : ∀ p, p ≠ .iterating → Cnt f.tc.iterating J f { f with tc := (f.tc.processTimeMessage cmd).1 } p :=
    fun p hp => .of_cnt hs hp (cnt_processTimeMessage _ _)
  unfold secondSwitch at hx
  split at hx
  · split at hx
    · cases hx
    · cases hx; exact hq _ (by simp)
  iterate 2
    · split at hx
      · split at hx
        · cases hx
          refine .of_cnt ?_ (by simp) ?_
          · simp only
            split
            · decide
            · exact hs
          · exact cnt_disconnect _
        · cases hx; exact hq _ (by simp)
      · simp only at hx
        split at hx
        · cases hx; exact hq' _ (by simp)
        · cases hx; exact hq' _ (by simp)
        · cases hx; exact hq' _ (by simp)
  · cases hx; exact hq _ (by simp)

theorem cnt_stateChange (s : FedState) (g : Fed) : (stateChange s g).1.tc.cnt = g.tc.cnt := by
  unfold stateChange
  split
  · rfl
  · split
    · split
      · rfl
      · unfold enterInitialization; simp only; split <;> rfl
    · exact cnt_of_core (core_updateTimeFactors _).1
    · rfl

theorem modeAfter_check (tc : TC) (cmd : Msg) (a : Cmd) (ha : a = .execCheck ∨ a = .timeCheck) :
    tc.modeAfter { cmd with action := a } = tc.iterating := by
  unfold modeAfter
  rw [if_neg (by rcases ha with e | e <;> simp [e])]

theorem secondSwitch_none {f : Fed} {cmd : Msg} (h : secondSwitch f cmd = none) : ownExec f cmd := by
  unfold secondSwitch at h
  split at h <;> rename_i ha
  · split at h
    · rename_i h2; exact ⟨ha, h2.1, h2.2⟩
    · cases h
  · split at h
    · split at h <;> cases h
    · simp only at h
      repeat' split at h
      all_goals cases h
  · split at h
    · split at h <;> cases h
    · simp only at h
      repeat' split at h
      all_goals cases h
  · cases h

/-- what an event does to the count, for a federate that is not executing -/
theorem cnt_processN (n : Nat) (f : Fed) (cmd : Msg) (hs : f.state ≠ .executing) (hct : cmd.actionTime ≤ maxVal)
    (hid : f.tc.self ≠ parentBroker) :
    Cnt (if n = 0 then f.tc.iterating else f.tc.modeAfter cmd) (joins cmd) f (processN n f cmd).1 (processN n f cmd).2 := by
  induction n generalizing f cmd with
  | zero => exact .of_cnt hs (by simp [processN]) rfl
  | succ n ih =>
    have ho := cnt_coordinator f cmd hs
    have hp := coordinator_progress f cmd
    have hk' := self_coordinator f cmd hct
    have htm := coordinator_time f cmd
    have hh := coordinator_handed f cmd
    simp only [Nat.add_eq_zero_iff, Nat.one_ne_zero, and_false, if_false]
    unfold processN
    generalize f.coordinator cmd = r at ho hp htm hh hk'
    obtain ⟨g, p, c⟩ := r
    simp only at ho hp htm hh hk' ⊢
    rw [← htm] at hct
    by_cases hk : g.state = f.state ∨ left g.state
    · rw [stateChange_same f g hk]
      simp only [Bool.false_eq_true, if_false]
      have hg : g.state ≠ .executing := by
        rcases hk with e | e | e | e
        · rw [e]; exact hs
        all_goals rw [e]; decide
      split
      · have hc := hh.1 rfl
        simp only at hc
        subst hc
        split
        · rename_i x hx
          exact ho.trans hg (by simp) hk (cnt_secondSwitch g c hg x hx)
        · have := ih g { c with action := .execCheck } hg hct (by rw [hk']; exact hid)
          rw [modeAfter_check _ _ _ (Or.inl rfl)] at this
          simp only [ite_self] at this
          exact ho.trans hg (by simp) hk (this.weaken (fun j => by simp [joins] at j))
      · split
        · exact ho.trans hg (by simp) hk (.of_cnt hg (by simp) rfl)
        · rename_i hd
          have hd := Decidable.not_not.mp hd
          have hne : c.dest ≠ parentBroker := by rw [hd, hk']; exact hid
          have := ih g c hg hct (by rw [hk']; exact hid)
          rcases hh.2 rfl with h | h | h
          · simp only at h
            subst h
            rw [modeAfter_check _ _ _ (Or.inl rfl)] at this
            simp only [ite_self] at this
            exact ho.trans hg (by simp) hk (this.weaken (fun j => by simp [joins] at j))
          · simp only at h
            subst h
            rw [modeAfter_check _ _ _ (Or.inr rfl)] at this
            simp only [ite_self] at this
            exact ho.trans hg (by simp) hk (this.weaken (fun j => by simp [joins] at j))
          · exact absurd h hne
      · exact ho
    · have hn : p = .nextStep := by
        rcases hp with h | h | h
        · exact absurd (Or.inl h) hk
        · exact absurd (Or.inr h) hk
        · exact h
      subst hn
      have hsc := cnt_stateChange f.state g
      have e1 : (stateChange f.state g).1.tc.iteration = g.tc.iteration := congrArg (·.1) hsc
      have e2 : (stateChange f.state g).1.tc.info = g.tc.info := congrArg (·.2.1) hsc
      have e3 : (stateChange f.state g).1.tc.iterating = g.tc.iterating := congrArg (·.2.2.1) hsc
      have e4 : (stateChange f.state g).1.tc.dynamicJoining = g.tc.dynamicJoining := congrArg (·.2.2.2) hsc
      have hst : (stateChange f.state g).1.state = g.state ∨ (stateChange f.state g).1.state = .errored := by
        unfold stateChange
        repeat' split
        all_goals simp
      have hst2 : (stateChange f.state g).2 = true → (stateChange f.state g).1.state = .errored := by
        unfold stateChange
        repeat' split
        all_goals simp
      have hst3 : g.state = .executing → (stateChange f.state g).2 = false ∧ (stateChange f.state g).1.state = .executing ∧
          (stateChange f.state g).1.mode = g.mode := by
        intro h
        unfold stateChange
        rw [h]
        split
        · exact ⟨rfl, h, rfl⟩
        · exact ⟨rfl, rfl, rfl⟩
      cases ho with
      | quiet a b c d e _ =>
        split
        · rename_i h2
          refine .quiet ?_ (e1.trans b) (e2.trans c) (e3.trans d) (fun h => e4.trans (e h)) (by simp)
          rw [hst2 h2]; decide
        · refine .quiet ?_ (e1.trans b) (e2.trans c) (e3.trans d) (fun h => e4.trans (e h)) (by simp)
          rcases hst with h | h
          · rw [h]; exact a
          · rw [h]; decide
      | again h => cases h
      | enter _ a b c d e h i =>
        obtain ⟨x1, x2, x3⟩ := hst3 b
        rw [if_neg (by rw [x1]; simp)]
        exact .enter rfl a x2 (x3.trans c) (e2.trans d) (e3.trans e) (fun y => e4.trans (h y)) (e1.trans i)

end Fed
end Verif
