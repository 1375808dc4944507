import Verif.Lemmas.Adv
/-! What a federate sends: its own commands, in its own name, never a forced grant or an initialization grant. -/
namespace Verif
open Causal

/-- a command that federate `me` may send -/
structure Fit (me : FedId) (m : Msg) : Prop where
  source : m.source = me ∨ m.action = .execCheck ∨ m.action = .timeCheck
  force : m.action ≠ .forceTimeGrant
  init : m.action ≠ .initGrant
  own : m.action = .execRequest ∨ m.action = .timeRequest → m.indicator = false
  err : m.action = .globalError → m.dest = parentBroker

theorem setIterationFlags_fit {me : FedId} {m : Msg} (h : Fit me m) (i : IterReq) : Fit me (setIterationFlags m i) := by
  cases i
  all_goals exact ⟨h.source, h.force, h.init, h.own, h.err⟩

theorem fit_plain {me : FedId} {m : Msg} (h1 : m.source = me) (h2 : m.indicator = false)
    (h3 : m.action ≠ .forceTimeGrant) (h4 : m.action ≠ .initGrant) (h5 : m.action ≠ .globalError) : Fit me m :=
  ⟨.inl h1, h3, h4, fun _ => h2, fun h => absurd h h5⟩

namespace TC
open Deps

/-- everything sent between `a` and `b` is fit -/
structure Sg (a b : TC) : Prop where
  self : b.self = a.self
  out : ∃ l, b.out = a.out ++ l ∧ ∀ p ∈ l, ∀ m ∈ p.msgs, Fit a.self m

theorem Sg.refl (a : TC) : Sg a a := ⟨rfl, [], by simp, by simp⟩
theorem Sg.of {a b : TC} (h : b.self = a.self) (h' : b.out = a.out) : Sg a b := ⟨h, [], by simp [h'], by simp⟩
theorem Sg.trans {a b c : TC} (h : Sg a b) (k : Sg b c) : Sg a c := by
  obtain ⟨l, h1, h2⟩ := h.out
  obtain ⟨l', k1, k2⟩ := k.out
  refine ⟨k.self.trans h.self, l ++ l', by rw [k1, h1, List.append_assoc], ?_⟩
  intro p hp m hm
  rcases List.mem_append.mp hp with hp | hp
  · exact h2 p hp m hm
  · have := k2 p hp m hm
    rw [h.self] at this
    exact this
theorem Sg.send (a : TC) (m : Msg) (h : Fit a.self m) : Sg a (a.send m) :=
  ⟨rfl, [.single m], rfl, by simp [Packet.msgs]; exact h⟩

theorem fit_dest {me : FedId} {m : Msg} (h : Fit me m) (h' : m.action ≠ .globalError) (d : FedId) (c : Int) :
    Fit me { m with dest := d, extraDestData := c } := ⟨h.source, h.force, h.init, h.own, fun e => absurd e h'⟩

theorem sg_transmit (a : TC) (m : Msg) (s : FedId) (h : Fit a.self m) (h' : m.action ≠ .globalError) : Sg a (a.transmit m s).1 := by
  refine ⟨rfl, _, rfl, ?_⟩
  intro p hp x hx
  obtain ⟨d, _, hd⟩ := List.mem_filterMap.mp hp
  split at hd
  · cases hd
    simp only [Packet.msgs, List.mem_singleton] at hx
    subst hx
    split
    · exact fit_dest h h' _ _
    · exact fit_dest h h' _ m.extraDestData
  · cases hd

theorem sg_tr {a : TC} (u : TC) (m : Msg) (s : FedId) (h1 : u.self = a.self) (h3 : u.out = a.out) (h : Fit a.self m)
    (h' : m.action ≠ .globalError) : Sg a (u.transmit m s).1 :=
  (Sg.of h1 h3).trans (sg_transmit u m s (by rw [h1]; exact h) h')

theorem fit_mkTimeRequest (a : TC) : Fit a.self a.mkTimeRequest := by
  unfold mkTimeRequest
  dsimp only
  split
  · (refine setIterationFlags_fit ?_ _; refine fit_plain rfl rfl ?_ ?_ ?_ <;> simp; done)
  · exact fit_plain rfl rfl (by simp) (by simp) (by simp)

theorem sg_sendTimeRequest (a : TC) (g : FedId) : Sg a (a.sendTimeRequest g) := by
  have hm := mkTimeRequest_action a
  have hf := fit_mkTimeRequest a
  have hne : a.mkTimeRequest.action ≠ .globalError := by rw [hm]; simp
  unfold sendTimeRequest
  dsimp only
  split
  · rename_i hc
    have h1 : Sg a (a.checkAndSend a.mkTimeRequest a.upstream.minFed).1 := by
      unfold checkAndSend
      split
      · exact sg_tr _ _ _ rfl rfl hf hne
      · exact .refl _
    split
    · refine h1.trans (.send _ _ ?_)
      rw [h1.self]
      exact ⟨hf.source, hf.force, hf.init, hf.own, fun e => absurd e hne⟩
    · exact h1
  · split
    · split
      · exact .of rfl rfl
      · split
        · exact .send _ _ (fit_dest hf hne _ _)
        · exact .refl _
    · exact .refl _

theorem sg_str {a : TC} (u : TC) (g : FedId) (h1 : u.self = a.self) (h3 : u.out = a.out) : Sg a (u.sendTimeRequest g) :=
  (Sg.of h1 h3).trans (sg_sendTimeRequest u g)

theorem sg_replyTrigger (a : TC) (g : FedId) : Sg a (a.replyTrigger g) := by
  unfold replyTrigger
  split
  · exact sg_sendTimeRequest _ _
  · exact .refl _

theorem sg_timeRequest (a : TC) (t : Time) (i : IterReq) (v m : Time) : Sg a (a.timeRequest t i v m) := by
  have h1 : Sg a (a.prepRequest t i v m).updateTimeFactors := .of rfl rfl
  unfold timeRequest
  dsimp only
  split
  · exact h1
  · exact h1.trans (sg_sendTimeRequest _ _)

theorem sg_updateValueTime (a : TC) (t : Time) (s : Bool) : Sg a (a.updateValueTime t s) := by
  unfold updateValueTime
  dsimp only
  repeat' split
  all_goals first
    | exact .of rfl rfl
    | exact sg_str _ _ rfl rfl

theorem sg_updateMessageTime (a : TC) (t : Time) (s : Bool) : Sg a (a.updateMessageTime t s) := by
  unfold updateMessageTime
  dsimp only
  repeat' split
  all_goals first
    | exact .of rfl rfl
    | exact sg_str _ _ rfl rfl

theorem sg_updateTimeGrant (a : TC) : Sg a a.updateTimeGrant := by
  unfold updateTimeGrant
  dsimp only
  apply sg_tr
  · repeat' split
    all_goals rfl
  · repeat' split
    all_goals rfl
  · refine fit_plain ?_ rfl (by simp) (by simp) (by simp)
    dsimp only
    repeat' split
    all_goals rfl
  · simp

theorem sg_grant {a : TC} (u : TC) (h : Sg a u) : Sg a u.updateTimeGrant := h.trans (sg_updateTimeGrant u)

theorem fit_issue (a : TC) : Fit a.self a.issueError := ⟨.inl rfl, by simp [issueError], by simp [issueError], fun _ => rfl, fun _ => rfl⟩

theorem sg_updateDeps (a : TC) (cmd : Msg) : Sg a (a.updateDeps cmd).1 := by
  have h1 : Sg a { a with deps := (a.deps.updateTime cmd).1 } := .of rfl rfl
  unfold updateDeps
  dsimp only
  split
  · split
    · exact h1.trans (.send _ _ (fit_issue _))
    · exact h1
  · exact h1

theorem fit_response (a : TC) (d : TimeData) (fed : FedId) (code : Int) : Fit a.self (a.generateTimeRequest d fed code) := by
  unfold generateTimeRequest
  dsimp only
  repeat' split
  all_goals first
    | (refine setIterationFlags_fit ?_ _; refine fit_plain rfl rfl ?_ ?_ ?_ <;> simp; done)
    | exact fit_plain rfl rfl (by simp) (by simp) (by simp)

theorem sg_processTimeMessage (a : TC) (cmd : Msg) : Sg a (a.processTimeMessage cmd).1 := by
  have hr : Sg a (a.removeDependent cmd.source) := .of rfl rfl
  unfold processTimeMessage
  split
  all_goals first
    | exact Sg.of rfl rfl
    | exact hr.trans (sg_updateDeps _ _)
    | exact sg_updateDeps _ _
    | skip
  · split
    · exact sg_tr _ _ _ rfl rfl (fit_plain rfl rfl (by simp) (by simp) (by simp)) (by simp)
    · exact .refl _
  · split
    · exact .send _ _ (fit_plain rfl rfl (by simp) (by simp) (by simp))
    · dsimp only
      have hw := fit_response a a.lastSend cmd.source cmd.counter
      have hw2 : Fit a.self (if a.triggered then { a.generateTimeRequest a.lastSend cmd.source cmd.counter with destinationTarget := true }
          else a.generateTimeRequest a.lastSend cmd.source cmd.counter) := by
        split
        · exact ⟨hw.source, hw.force, hw.init, hw.own, hw.err⟩
        · exact hw
      have h0 : Sg a (if (a.triggered && cmd.source == rootBroker) then { a with triggered := false } else a) := by
        split <;> exact .of rfl rfl
      refine h0.trans ((Sg.send _ _ ?_).trans (.of rfl rfl))
      rw [h0.self]; exact hw2

theorem Sg.close {a u : TC} (l : List Packet) (h : Sg a u) (hl : ∀ p ∈ l, ∀ m ∈ p.msgs, Fit a.self m) :
    Sg a { u with out := u.out ++ l, disconnected := true } := by
  obtain ⟨k, h1, h2⟩ := h.out
  refine ⟨h.self, k ++ l, by show u.out ++ l = _; rw [h1, List.append_assoc], ?_⟩
  intro p hp
  rcases List.mem_append.mp hp with hp | hp
  · exact h2 p hp
  · exact hl p hp

theorem Sg.shut {a u : TC} (h : Sg a u) : Sg a { u with disconnected := true } := h.trans (.of rfl rfl)

theorem sg_multi (me : FedId) (c : Cmd) (hc : c = .disconnect ∨ c = .localError) (ds : Deps) (q : DepInfo → Bool) :
    ∀ p ∈ [Packet.multi (appendAll ((ds.filter q).map fun d => { action := c, source := me, dest := d.fedID }))],
      ∀ m ∈ p.msgs, Fit me m := by
  intro p hp m hm
  rw [List.mem_singleton.mp hp] at hm
  have := List.mem_of_mem_take (show m ∈ List.take 255 _ from hm)
  obtain ⟨d, _, rfl⟩ := List.mem_map.mp this
  rcases hc with rfl | rfl <;> exact fit_plain rfl rfl (by simp) (by simp) (by simp)

theorem sg_disconnect (a : TC) : Sg a a.disconnect := by
  unfold disconnect
  split
  · exact .refl _
  · dsimp only
    split
    · exact .of rfl rfl
    · refine Sg.shut ?_
      split
      · split
        · exact sg_processTimeMessage _ _
        · exact .send _ _ (fit_plain rfl rfl (by simp) (by simp) (by simp))
      · exact .refl _
    · refine Sg.close _ ?_ (sg_multi a.self _ (.inl rfl) _ _)
      split
      · exact sg_processTimeMessage _ _
      · exact .refl _

theorem sg_localError (a : TC) : Sg a a.localError := by
  have h0 : Sg a { a with granted := maxVal, grantBase := maxVal } := .of rfl rfl
  unfold localError
  split
  · exact .refl _
  · dsimp only
    split
    · exact h0
    · refine Sg.shut ?_
      split
      · split
        · exact h0.trans (sg_processTimeMessage _ _)
        · exact h0.trans (.send _ _ (fit_plain rfl rfl (by simp) (by simp) (by simp)))
      · exact h0
    · refine Sg.close _ ?_ (sg_multi a.self _ (.inr rfl) _ _)
      split
      · exact h0.trans (sg_processTimeMessage _ _)
      · exact h0

theorem sg_applyRestriction (a : TC) (c : RestrictionCheck) (r s : Bool) (ok : MPR) :
    Sg a (a.applyRestriction c r s ok).1 := by
  unfold applyRestriction
  repeat' split
  all_goals exact .of rfl rfl

theorem sg_iterDecision (a : TC) (s : Bool) : Sg a (a.iterDecision s).1 := by
  unfold iterDecision
  repeat' split
  all_goals first | exact .of rfl rfl | exact sg_applyRestriction _ _ _ _ _

theorem sg_finishGrant (a : TC) (g : FedId) (s : Bool) (p : MPR) : Sg a (a.finishGrant g s p).1 := by
  unfold finishGrant
  split
  · dsimp only
    split
    · split
      · exact sg_sendTimeRequest _ _
      · split
        · exact sg_sendTimeRequest _ _
        · exact .refl _
    · exact .refl _
  · exact sg_grant _ (.of rfl rfl)
  · split
    · exact sg_grant _ (.of rfl rfl)
    · exact sg_grant _ (.of rfl rfl)
  · exact .refl _

theorem sg_grantNoIter (a : TC) (g : FedId) (s : Bool) : Sg a (a.grantNoIter g s).1 := by
  unfold grantNoIter
  repeat' split
  all_goals first | exact sg_grant _ (.of rfl rfl) | exact sg_finishGrant _ _ _ _

theorem sg_grantIter (a : TC) (g : FedId) (s : Bool) : Sg a (a.grantIter g s).1 := by
  unfold grantIter
  dsimp only
  repeat' split
  all_goals first
    | exact sg_grant _ (.of rfl rfl)
    | exact (sg_iterDecision _ _).trans (sg_finishGrant _ _ _ _)
    | exact sg_finishGrant _ _ _ _

theorem sg_checkTimeGrant (a : TC) (g : FedId) : Sg a (a.checkTimeGrant g).1 := by
  have h0 : Sg a a.updateTimeFactors := .of rfl rfl
  have h1 : Sg a { a.updateTimeFactors with needSendAll := false } := .of rfl rfl
  have h2 : Sg a { a.updateTimeFactors with granted := maxVal, grantBase := maxVal } := .of rfl rfl
  unfold checkTimeGrant
  dsimp only
  repeat' split
  · exact h2.trans (sg_disconnect _)
  · exact h0.trans (sg_replyTrigger _ _)
  · exact h0.trans (sg_replyTrigger _ _)
  · exact h1.trans (sg_grantNoIter _ _ _)
  · exact h1.trans (sg_grantIter _ _ _)
  · exact h1.trans (sg_grantIter _ _ _)
  · exact h1.trans (sg_finishGrant _ _ _ _)

theorem sg_sendUpdatedExecRequest (a : TC) (t m : FedId) (r : Int) : Sg a (a.sendUpdatedExecRequest t m r) := by
  have hf : ∀ (x : FedId), Fit a.self (setIterationFlags
    { action := .execRequest, source := a.self, counter := toU16 a.seq, extraData := x
      messageID := a.restrictionLevel, delayedTiming := a.info.waitForCurrent } a.iterating) :=
    fun x => by refine setIterationFlags_fit ?_ _; refine fit_plain rfl rfl ?_ ?_ ?_ <;> simp
  unfold sendUpdatedExecRequest
  dsimp only
  split
  · exact .send _ _ (fit_dest (hf _) (by simp [setIterationFlags_action]) _ _)
  · refine ⟨rfl, _, rfl, ?_⟩
    intro p hp x hx
    obtain ⟨d, _, hd⟩ := List.mem_filterMap.mp hp
    split at hd
    · cases hd
      simp only [Packet.msgs, List.mem_singleton] at hx
      subst hx
      exact fit_dest (hf _) (by simp [setIterationFlags_action]) _ _
    · cases hd

theorem sg_replyExec (a : TC) (t m : FedId) : Sg a (a.replyExec t m) := by
  unfold replyExec
  split
  · exact .of rfl rfl
  · split
    · exact sg_sendUpdatedExecRequest _ _ _ _
    · exact .refl _

theorem sg_execNotReady (a : TC) (t : FedId) : Sg a (a.execNotReady t) := by
  unfold execNotReady
  dsimp only
  repeat' split
  all_goals first
    | exact .of rfl rfl
    | exact sg_sendUpdatedExecRequest _ _ _ _
    | exact sg_replyExec _ _ _

theorem sg_execDecision (a : TC) (s : Bool) : Sg a (a.execDecision s).1 := by
  unfold execDecision
  dsimp only
  repeat' split
  all_goals first | exact .of rfl rfl | exact sg_applyRestriction _ _ _ _ _

theorem sg_execGrant (a : TC) (p : MPR) : Sg a (a.execGrant p) := by
  unfold execGrant
  dsimp only
  split
  · split
    · exact sg_tr _ _ _ rfl rfl (fit_plain rfl rfl (by simp) (by simp) (by simp)) (by simp)
    · have h2 := sg_tr (a := a) { a with deps := a.deps.resetIterExec, hasInitUpdates := false, iteration := a.iteration + 1 }
        { action := .execGrant, source := a.self, counter := toU16 (a.iteration + 1), extraDestData := version, iterationRequested := true }
        invalidFed rfl rfl (fit_plain rfl rfl (by simp) (by simp) (by simp)) (by simp)
      exact h2.trans (.of rfl rfl)
    · exact .refl _
  · split
    · refine sg_tr _ _ _ rfl rfl (fit_plain rfl rfl ?_ ?_ ?_) ?_ <;> dsimp only <;> (repeat' split) <;> simp
    · exact .refl _

theorem sg_execContinue (a : TC) (t : FedId) (s : Bool) (p : MPR) : Sg a (a.execContinue t s p) := by
  unfold execContinue
  dsimp only
  repeat' split
  all_goals first
    | exact .refl _
    | exact sg_sendUpdatedExecRequest _ _ _ _
    | exact sg_replyExec _ _ _

theorem sg_checkExecEntry (a : TC) (t : FedId) : Sg a (a.checkExecEntry t).1 := by
  have h1 : Sg a { a with needSendAll := false } := .of rfl rfl
  unfold checkExecEntry
  dsimp only
  split
  · exact .refl _
  · split
    · exact sg_execNotReady _ _
    · exact ((h1.trans (sg_execDecision _ _)).trans (sg_execGrant _ _)).trans (sg_execContinue _ _ _ _)

theorem sg_sendTimingInfo (a : TC) : Sg a a.sendTimingInfo := by
  refine ⟨rfl, _, rfl, ?_⟩
  intro p hp x hx
  obtain ⟨d, _, hd⟩ := List.mem_filterMap.mp hp
  split at hd
  · cases hd
    simp only [Packet.msgs, List.mem_singleton] at hx
    subst hx
    exact fit_plain rfl rfl (by simp) (by simp) (by simp)
  · cases hd

theorem sg_enteringExecMode (a : TC) (m : IterReq) : Sg a (a.enteringExecMode m) := by
  unfold enteringExecMode
  dsimp only
  split
  · exact .refl _
  · have h0 : Sg a { a with iterating := m } := .of rfl rfl
    split
    · exact h0.trans (.send _ _ (fit_issue _))
    · have h1 := h0.trans (sg_sendTimingInfo _)
      split
      · refine h1.trans (sg_tr _ _ _ rfl rfl ?_ ?_)
        · cases m <;> split <;> exact ⟨.inl rfl, by simp [setIterationFlags], by simp [setIterationFlags], fun _ => rfl, by simp [setIterationFlags]⟩
        · split <;> simp [setIterationFlags_action]
      · exact h1.trans (sg_tr _ _ _ rfl rfl (fit_plain rfl rfl (by simp) (by simp) (by simp)) (by simp))

theorem sg_setConn (u : TC) (g : FedId) (c : Conn) : Sg u (u.setConn g c) := by
  unfold setConn
  split
  · exact .refl _
  · exact .of rfl rfl

theorem sg_depTail (cmd : Msg) (r : TC × Bool) : Sg r.1 (depTail cmd r) := by
  unfold depTail
  split
  · have h2 : Sg r.1 (if cmd.child then r.1.setConn cmd.source .child else r.1) := by
      split
      · exact sg_setConn _ _ _
      · exact .refl _
    have h3 : ∀ u : TC, Sg u (if cmd.parent then u.setConn cmd.source .parent else u) := by
      intro u
      split
      · exact sg_setConn _ _ _
      · exact .refl _
    have h4 := h2.trans (h3 _)
    have h5 : ∀ u : TC, Sg u (if cmd.counter > 0 then
      { u with deps := u.deps.modify cmd.source (fun d => { d with timingVersion := toI8 cmd.counter }) } else u) := by
      intro u
      split
      · exact .of rfl rfl
      · exact .refl _
    exact h4.trans (h5 _)
  · exact .refl _

theorem sg_processDependencyUpdate (a : TC) (cmd : Msg) : Sg a (a.processDependencyUpdate cmd) := by
  have hd : ∀ (u : TC) (b : Bool), Sg a u → Sg a (depTail cmd (u, b)) := fun u b h => h.trans (sg_depTail cmd (u, b))
  unfold processDependencyUpdate
  split
  all_goals exact hd _ _ (.of rfl rfl)

end TC

namespace Fed
open TC Deps

theorem sg_tryGrant (f : Fed) (t : FedId) : Sg f.tc (f.tryGrant t).1.tc := by
  unfold tryGrant
  split
  · exact sg_checkTimeGrant _ _
  · exact .refl _

theorem sg_execCheck (f : Fed) (c : Msg) : Sg f.tc (f.execCheck c).1.tc := by
  unfold execCheck
  dsimp only
  split
  · exact .refl _
  · split
    · have h := (sg_checkExecEntry f.tc (if c.action = .execRequest then c.source else invalidFed))
      split
      · exact h
      · exact h
      · dsimp only
        split
        · exact h.trans (sg_sendUpdatedExecRequest _ _ _ _)
        · exact h
      · exact h
    · exact .refl _

theorem sg_coordinator (f : Fed) (cmd : Msg) : Sg f.tc (f.coordinator cmd).1.tc := by
  have hm := sg_processTimeMessage f.tc cmd
  have hg : ∀ (g : Fed) t, Sg f.tc g.tc → Sg f.tc (g.tryGrant t).1.tc := fun g t h => h.trans (sg_tryGrant g t)
  have he : ∀ (g : Fed), Sg f.tc g.tc → Sg f.tc (g.execCheck cmd).1.tc := fun g h => h.trans (sg_execCheck g cmd)
  unfold coordinator
  dsimp only
  repeat' split
  all_goals first
    | exact .refl _
    | exact Sg.of rfl rfl
    | exact hm
    | exact hg _ _ hm
    | exact hg _ _ (.refl _)
    | exact he _ hm
    | exact he _ (.refl _)
    | exact sg_disconnect _
    | exact sg_localError _
    | exact sg_enteringExecMode _ _
    | exact sg_processDependencyUpdate _ _

theorem sg_stateChange (s : FedState) (f : Fed) : Sg f.tc (stateChange s f).1.tc := by
  have he : Sg f.tc (enterInitialization f.tc) := by
    unfold enterInitialization
    split
    · refine ⟨rfl, _, rfl, ?_⟩
      intro p hp x hx
      obtain ⟨d, _, hd⟩ := List.mem_filterMap.mp hp
      split at hd
      · cases hd
        simp only [Packet.msgs, List.mem_singleton] at hx
        subst hx
        exact fit_plain rfl rfl (by simp) (by simp) (by simp)
      · cases hd
    · exact .refl _
  unfold stateChange
  repeat' split
  all_goals first | exact .refl _ | exact he | exact Sg.of rfl rfl

theorem sg_secondSwitch (f : Fed) (cmd : Msg) (x : Fed × MPR) (h : secondSwitch f cmd = some x) : Sg f.tc x.1.tc := by
  have hm := sg_processTimeMessage f.tc cmd
  have hd := sg_disconnect f.tc
  unfold secondSwitch at h
  dsimp only at h
  repeat' split at h
  all_goals cases h
  all_goals first
    | exact .refl _
    | exact hm
    | exact hm.trans (sg_checkTimeGrant _ _)
    | skip
  all_goals
    rename_i ha hs _ _
    refine hd.trans (.send _ _ ?_)
    rw [hd.self]
    exact ⟨.inl hs, by simp [ha], by simp [ha], by simp [ha], by simp [ha]⟩

/-- what is handed on for another round is a check, or the federate's own goodbye -/
theorem coordinator_fit (f : Fed) (cmd : Msg) (h : (f.coordinator cmd).2.1 = .reprocessMessage) :
    Fit f.tc.self (f.coordinator cmd).2.2 := by
  have key : ∀ r : Fed × MPR × Msg, r = f.coordinator cmd → r.2.1 = .reprocessMessage → Fit f.tc.self r.2.2 := by
    intro r hr he
    unfold coordinator at hr
    dsimp only at hr
    repeat' split at hr
    all_goals subst hr
    all_goals first
      | exact ⟨.inr (.inl rfl), by simp, by simp, by simp, by simp⟩
      | exact ⟨.inr (.inr rfl), by simp, by simp, by simp, by simp⟩
      | (rename_i ha hs _; exact ⟨.inl hs, by simp [ha], by simp [ha], by simp [ha], by simp [ha]⟩)
      | exact absurd he (tryGrant_result _ _)
      | exact absurd he (execCheck_result _ _)
      | (simp at he; done)
      | (dsimp only at he; split at he <;> cases he)
  exact key _ rfl h

theorem sg_processN (n : Nat) (f : Fed) (cmd : Msg) : Sg f.tc (processN n f cmd).1.tc := by
  induction n generalizing f cmd with
  | zero => exact .refl _
  | succ n ih =>
    have hc := sg_coordinator f cmd
    have hh := coordinator_handed f cmd
    have hfit := coordinator_fit f cmd
    rw [processN]
    dsimp only
    generalize f.coordinator cmd = c at hc hh hfit
    have hs := hc.trans (sg_stateChange f.state c.1)
    split
    · exact hs
    · split
      · rename_i hcp
        have hcm := hh.1 hcp
        split
        · rename_i x hx
          exact hs.trans (sg_secondSwitch _ _ _ hx)
        · exact hs.trans (ih _ _)
      · rename_i hcp
        split
        · refine hs.trans (.send _ _ ?_)
          rw [hs.self]; exact hfit hcp
        · exact hs.trans (ih _ _)
      · exact hs

theorem sg_step (limit : Int) (f : Fed) (o : FedOp) : Sg f.tc (f.step limit o).1.tc := by
  cases o with
  | msg cmd => exact sg_processN 4 f cmd
  | timeRequest t it nv nm =>
    simp only [step]
    split
    · exact (sg_timeRequest f.tc t (f.limitIter limit it) nv nm).trans
        (sg_processN 4 { f with tc := f.tc.timeRequest t (f.limitIter limit it) nv nm, mode := false } _)
    · exact .refl _
  | execRequest it =>
    simp only [step]
    split
    · exact sg_processN 4 f _
    · exact .refl _
  | value cmd =>
    have h1 := sg_updateValueTime f.tc cmd.actionTime (!f.mode)
    simp only [step]
    unfold valueArrives
    dsimp only
    split
    · exact h1.trans (sg_processTimeMessage _ _)
    · exact h1
  | message cmd =>
    have h1 := sg_updateMessageTime f.tc cmd.actionTime (!f.mode)
    simp only [step]
    unfold messageArrives
    dsimp only
    split
    · exact h1.trans (sg_processTimeMessage _ _)
    · exact h1
  | setTime p v =>
    simp only [step]
    split
    · exact .refl _
    · cases p <;> exact .of rfl rfl
  | setFlag o v => simp only [step]; cases o <;> exact .of rfl rfl
  | setMaxIterations v => exact .of rfl rfl

end Fed
end Verif
