import Verif.Lemmas.Promise
import Verif.Lemmas.Iter
/-! The floor of a federate never sinks, and everything it tells lies at or below it. -/
namespace Verif
open Causal

namespace TC

/-- only packets announcing nothing after `B` are sent, nothing else that matters changes -/
structure Mute (F : Prop) (B : Time) (a b : TC) : Prop where
  say : Say F B a b
  core : b.core = a.core

theorem Mute.refl {F : Prop} {B : Time} (a : TC) : Mute F B a a := ⟨.refl a, rfl⟩

theorem say_sendUpdatedExecRequest {F : Prop} {B : Time} (a : TC) (t m : FedId) (r : Int) : Say F B a (a.sendUpdatedExecRequest t m r) := by
  have hw : ∀ x : Msg, x.action = .execRequest → Within F B x := fun x h => within_other (.inr (by unfold word; rw [h]))
  unfold sendUpdatedExecRequest
  dsimp only
  split
  · exact .send _ _ (hw _ (by simp [setIterationFlags_action]))
  · refine .app _ rfl rfl ⟨rfl, rfl, rfl⟩ rfl ?_
    intro p hp x hx
    obtain ⟨d, _, hd⟩ := List.mem_filterMap.mp hp
    split at hd
    · cases hd
      simp only [Packet.msgs, List.mem_singleton] at hx
      subst hx
      exact hw _ (by simp [setIterationFlags_action])
    · cases hd

theorem say_replyExec {F : Prop} {B : Time} (a : TC) (t m : FedId) : Say F B a (a.replyExec t m) := by
  unfold replyExec
  split
  · exact .of rfl rfl ⟨rfl, rfl, rfl⟩ rfl
  · split
    · exact say_sendUpdatedExecRequest _ _ _ _
    · exact .refl _

theorem say_execNotReady {F : Prop} {B : Time} (a : TC) (t : FedId) : Say F B a (a.execNotReady t) := by
  unfold execNotReady
  dsimp only
  repeat' split
  all_goals first
    | exact .of rfl rfl ⟨rfl, rfl, rfl⟩ rfl
    | exact say_sendUpdatedExecRequest _ _ _ _
    | exact say_replyExec _ _ _

theorem say_execDecision {F : Prop} {B : Time} (a : TC) (s : Bool) : Say F B a (a.execDecision s).1 := by
  unfold execDecision
  dsimp only
  repeat' split
  all_goals first | exact .refl _ | exact .of rfl rfl ⟨rfl, rfl, rfl⟩ rfl | exact say_applyRestriction _ _ _ _ _

theorem say_execGrant {F : Prop} {B : Time} (a : TC) (p : MPR) (hj : a.dynamicJoining = false) (h0 : 0 ≤ B) :
    Say F B a (a.execGrant p) := by
  unfold execGrant
  dsimp only
  split
  · split
    · have h1 : Say F B a { a with granted := 0, grantBase := 0, executionMode := true, iteration := 0, restrictionLevel := 0 } :=
        .of rfl rfl ⟨rfl, rfl, rfl⟩ rfl
      exact h1.trans (say_transmit _ _ _ (within_execGrant rfl h0))
    · have h : Say F B a { a with deps := a.deps.resetIterExec, hasInitUpdates := false, iteration := a.iteration + 1 } :=
        .of rfl rfl ⟨rfl, rfl, rfl⟩ rfl
      have h2 := h.trans (say_transmit { a with deps := a.deps.resetIterExec, hasInitUpdates := false, iteration := a.iteration + 1 }
        { action := .execGrant, source := a.self, counter := toU16 (a.iteration + 1), extraDestData := version, iterationRequested := true }
        invalidFed (within_execGrant rfl h0))
      exact ⟨h2.out, h2.last, h2.disc, h2.fut⟩
    · exact .refl _
  · rename_i h; simp [hj] at h

theorem say_execContinue {F : Prop} {B : Time} (a : TC) (t : FedId) (s : Bool) (p : MPR) : Say F B a (a.execContinue t s p) := by
  unfold execContinue
  dsimp only
  repeat' split
  all_goals first
    | exact .refl _
    | exact say_sendUpdatedExecRequest _ _ _ _
    | exact say_replyExec _ _ _

theorem core_execDecision' (a : TC) (s : Bool) : (a.execDecision s).1.core = a.core := by
  unfold execDecision
  dsimp only
  repeat' split
  all_goals first | rfl | exact (core_applyRestriction _ _ _ _ _).1

theorem say_checkExecEntry {F : Prop} {B : Time} (a : TC) (t : FedId) (hj : a.dynamicJoining = false) (h0 : 0 ≤ B) :
    Say F B a (a.checkExecEntry t).1 := by
  have h1 : Say F B a { a with needSendAll := false } := .of rfl rfl ⟨rfl, rfl, rfl⟩ rfl
  unfold checkExecEntry
  dsimp only
  split
  · exact .refl _
  · split
    · exact say_execNotReady _ _
    · refine ((h1.trans (say_execDecision _ _)).trans (say_execGrant _ _ ?_ h0)).trans (say_execContinue _ _ _ _)
      rw [show (({ a with needSendAll := false } : TC).execDecision a.needSendAll).1.dynamicJoining = a.dynamicJoining from
        congrArg Core.dynamicJoining (core_execDecision' _ _)]
      exact hj

theorem say_sendTimingInfo {F : Prop} {B : Time} (a : TC) : Say F B a a.sendTimingInfo := by
  refine .app _ rfl rfl ⟨rfl, rfl, rfl⟩ rfl ?_
  intro p hp x hx
  obtain ⟨d, _, hd⟩ := List.mem_filterMap.mp hp
  split at hd
  · cases hd
    simp only [Packet.msgs, List.mem_singleton] at hx
    subst hx
    exact within_other (.inl rfl)
  · cases hd

theorem say_enteringExecMode {F : Prop} {B : Time} (a : TC) (m : IterReq) : Say F B a (a.enteringExecMode m) := by
  have hw : ∀ x : Msg, x.action = .execRequest → Within F B x := fun x h => within_other (.inr (by unfold word; rw [h]))
  unfold enteringExecMode
  dsimp only
  split
  · exact .refl _
  · have h0 : Say F B a { a with iterating := m } := .of rfl rfl ⟨rfl, rfl, rfl⟩ rfl
    split
    · exact h0.trans (.send _ _ (fun h => absurd rfl h))
    · have h1 := h0.trans (say_sendTimingInfo _)
      have h2 : ∀ u : TC, Say F B u { u with checkingExec := true } := fun u => .of rfl rfl ⟨rfl, rfl, rfl⟩ rfl
      have h3 : ∀ u : TC, Say F B u { u with checkingExec := true, seq := u.seq + 1 } := fun u => .of rfl rfl ⟨rfl, rfl, rfl⟩ rfl
      split
      · refine (h1.trans (h3 _)).trans (say_transmit _ _ _ (hw _ ?_))
        split <;> simp [setIterationFlags_action]
      · exact (h1.trans (h2 _)).trans (say_transmit _ _ _ (hw _ rfl))

theorem say_setConn {F : Prop} {B : Time} (u : TC) (g : FedId) (c : Conn) : Say F B u (u.setConn g c) := by
  unfold setConn
  split
  · exact .refl _
  · exact .of rfl rfl ⟨rfl, rfl, rfl⟩ rfl

theorem say_depTail {F : Prop} {B : Time} (cmd : Msg) (r : TC × Bool) : Say F B r.1 (depTail cmd r) := by
  unfold depTail
  split
  · have h2 : Say F B r.1 (if cmd.child then r.1.setConn cmd.source .child else r.1) := by
      split
      · exact say_setConn _ _ _
      · exact .refl _
    have h3 : ∀ u : TC, Say F B u (if cmd.parent then u.setConn cmd.source .parent else u) := by
      intro u
      split
      · exact say_setConn _ _ _
      · exact .refl _
    have h4 := h2.trans (h3 _)
    have h5 : ∀ u : TC, Say F B u (if cmd.counter > 0 then
      { u with deps := u.deps.modify cmd.source (fun d => { d with timingVersion := toI8 cmd.counter }) } else u) := by
      intro u
      split
      · exact .of rfl rfl ⟨rfl, rfl, rfl⟩ rfl
      · exact .refl _
    exact h4.trans (h5 _)
  · exact .refl _

theorem say_processDependencyUpdate {F : Prop} {B : Time} (a : TC) (cmd : Msg) : Say F B a (a.processDependencyUpdate cmd) := by
  have hd : ∀ (u : TC) (b : Bool), Say F B a u → Say F B a (depTail cmd (u, b)) := fun u b h => h.trans (say_depTail cmd (u, b))
  unfold processDependencyUpdate
  split
  all_goals first
    | exact hd _ _ (.of rfl rfl ⟨rfl, rfl, rfl⟩ rfl)
    | exact hd _ _ (.refl _)

end TC

namespace Fed
open TC

/-- the federate takes part in the co-simulation -/
def live (f : Fed) : Prop :=
  f.tc.disconnected = false ∧ (f.state = .created ∨ f.state = .initializing ∨ f.state = .executing)

/-- the earliest time stamp the federate may still put on data -/
def floor (f : Fed) : Time :=
  if f.state = .executing then (if f.mode then f.tc.granted + f.tc.info.outputDelay else f.tc.pot) else 0

/-- the settings make its announcements binding -/
def Pol (F : Prop) (f : Fed) : Prop := f.state = .executing → Policy F f.tc.info

structure Good (F : Prop) (f : Fed) : Prop where
  join : f.tc.dynamicJoining = false
  last : LastOk F f.floor f.tc
  pre : f.state ≠ .executing → f.tc.executionMode = false
  time : f.state = .executing → GoodTime f.tc
  floor : 0 ≤ f.floor
  pend : f.state = .executing → f.mode = false → Pend F f.tc ∧ NextOk F f.floor f.tc

/-- `Good`, as long as it matters -/
def Ok (F : Prop) (f : Fed) : Prop := f.live → Pol F f → Good F f

structure Adv (F : Prop) (f r : Fed) : Prop where
  out : ∃ l, r.tc.out = f.tc.out ++ l ∧ ∀ p ∈ l, ∀ m ∈ p.msgs, Within F r.floor m
  live : f.live
  pol : Pol F f
  floor : f.floor ≤ r.floor
  good : Good F r

/-- one step from an acceptable state -/
def Go (F : Prop) (f r : Fed) : Prop := Ok F f → r.live → Pol F r → Adv F f r

theorem Go.refl {F : Prop} (f : Fed) : Go F f f := fun h h1 h2 =>
  ⟨⟨[], by simp, by simp⟩, h1, h2, Int.le_refl _, h h1 h2⟩

theorem Go.trans {F : Prop} {f g r : Fed} (h : Go F f g) (k : Go F g r) : Go F f r := by
  intro hf hl hp
  have h2 := k (fun a b => (h hf a b).good) hl hp
  have h1 := h hf h2.live h2.pol
  obtain ⟨l, h3, h4⟩ := h1.out
  obtain ⟨l', h5, h6⟩ := h2.out
  refine ⟨⟨l ++ l', by rw [h5, h3, List.append_assoc], fun p hm m hx => ?_⟩, h1.live, h1.pol,
    Int.le_trans h1.floor h2.floor, h2.good⟩
  rcases List.mem_append.mp hm with hm | hm
  · exact (h4 p hm m hx).mono h2.floor
  · exact h6 p hm m hx

/-- leaving the co-simulation: nothing is claimed any more -/
theorem Go.left {F : Prop} {f r : Fed} (hr : ¬ r.live) : Go F f r := fun _ h => absurd h hr

theorem not_live_state {r : Fed} (h : r.state = .errored ∨ r.state = .terminating ∨ r.state = .finished) : ¬ r.live := by
  rintro ⟨_, h1⟩
  rcases h with h | h | h <;> rw [h] at h1 <;> simp at h1

theorem not_live_disc {r : Fed} (h : r.tc.disconnected = true) : ¬ r.live := by
  rintro ⟨h1, _⟩
  rw [h] at h1; cases h1

/-- state, mode and core as before -/
theorem Go.quiet {F : Prop} {f r : Fed} (hs : r.state = f.state) (hm : r.mode = f.mode) (hc : r.tc.core = f.tc.core)
    (h : ∀ B, 0 ≤ B → LastOk F B f.tc → Say F B f.tc r.tc) (hd : r.tc.disconnected = false → f.tc.disconnected = false) : Go F f r := by
  have hl : r.live → f.live := fun ⟨a, b⟩ => ⟨hd a, hs ▸ b⟩
  have hi : r.tc.info = f.tc.info := congrArg Core.info hc
  have hpol : Pol F r → Pol F f := fun k e => hi ▸ k (hs.trans e)
  have hfl : r.floor = f.floor := by
    unfold Fed.floor
    rw [hs, hm, pot_core hc, hi, show r.tc.granted = f.tc.granted from congrArg Core.granted hc]
  intro hf x1 x2
  have g := hf (hl x1) (hpol x2)
  have hsay := h f.floor g.floor g.last
  obtain ⟨l, h1, h2⟩ := hsay.out
  refine ⟨⟨l, h1, by rw [hfl]; exact h2 x1.1⟩, hl x1, hpol x2, by rw [hfl]; exact Int.le_refl _, ?_⟩
  refine ⟨(congrArg Core.dynamicJoining hc).trans g.join, by rw [hfl]; exact hsay.last g.last, fun e => ?_, fun e => ?_,
    by rw [hfl]; exact g.floor, fun e e' => ?_⟩
  · exact (congrArg Core.executionMode hc).trans (g.pre (hs ▸ e))
  · exact GoodTime.congr hc (g.time (hs ▸ e))
  · obtain ⟨p1, p2⟩ := g.pend (hs ▸ e) (hm ▸ e')
    exact ⟨p1.congr hc, by rw [hfl]; exact hsay.fut p2⟩

/-- before executing mode: what is claimed is little -/
theorem Go.before {F : Prop} {f r : Fed} (hs : f.state ≠ .executing) (hr : r.state ≠ .executing)
    (hl : r.live → f.live) (hj : f.tc.dynamicJoining = false → r.tc.dynamicJoining = false)
    (he : r.live → f.tc.executionMode = false → r.tc.executionMode = false)
    (h : f.tc.dynamicJoining = false → LastOk F 0 f.tc → Say F 0 f.tc r.tc) : Go F f r := by
  have hpf : Pol F f := fun e => absurd e hs
  have e1 : f.floor = 0 := by unfold Fed.floor; rw [if_neg hs]
  have e2 : r.floor = 0 := by unfold Fed.floor; rw [if_neg hr]
  intro hf hx _
  have g := hf (hl hx) hpf
  have hlast := g.last
  rw [e1] at hlast
  have hsay := h g.join hlast
  obtain ⟨l, h1, h2⟩ := hsay.out
  refine ⟨⟨l, h1, by rw [e2]; exact h2 hx.1⟩, hl hx, hpf, by rw [e1, e2]; exact Int.le_refl _, ?_⟩
  exact ⟨hj g.join, by rw [e2]; exact hsay.last hlast, fun _ => he hx (g.pre hs), fun e => absurd e hr, by rw [e2]; exact Int.le_refl _,
    fun e => absurd e hr⟩

theorem disc_processTimeMessage (a : TC) (cmd : Msg) : (a.processTimeMessage cmd).1.disconnected = a.disconnected := by
  by_cases hq : cmd.action = .requestCurrentTime
  · unfold processTimeMessage
    simp only [hq]
    split
    · rfl
    · dsimp only
      split <;> rfl
  · exact (hush_processTimeMessage a cmd hq).disc

theorem go_processTimeMessage {F : Prop} (f : Fed) (cmd : Msg) (hf : cmd.action ≠ .forceTimeGrant) :
    Go F f { f with tc := (f.tc.processTimeMessage cmd).1 } :=
  Go.quiet rfl rfl (core_processTimeMessage _ _ hf).1 (fun _ _ hl => say_processTimeMessage _ _ hf (fun _ => hl))
    (fun h => (disc_processTimeMessage _ _).symm.trans h)

theorem halted_disc (a : TC) (t : FedId) (h : (a.checkTimeGrant t).2 = .halted) : (a.checkTimeGrant t).1.disconnected = true := by
  rcases checkTimeGrant_outcome a t with ⟨_, h2, h3, _⟩ | ⟨h', _⟩ | ⟨h', _⟩ | ⟨h', _⟩
  · have hc : a.updateTimeFactors.exec ≥ cTerm ∧ a.updateTimeFactors.allow ≥ cTerm := by
      rw [updateTimeFactors_exec]; exact ⟨h2, h3⟩
    unfold checkTimeGrant
    dsimp only
    rw [if_pos hc]
    exact disconnect_disc _
  all_goals rw [h] at h'; cases h'

theorem disc_checkTimeGrant (a : TC) (g : FedId) (h : a.disconnected = true) : (a.checkTimeGrant g).1.disconnected = true := by
  have h0 : Hush a a.updateTimeFactors := .of rfl rfl rfl
  have h1 : Hush a { a.updateTimeFactors with needSendAll := false } := .of rfl rfl rfl
  unfold checkTimeGrant
  dsimp only
  repeat' split
  · exact disconnect_disc _
  · exact (h0.trans (hush_replyTrigger _ _)).disc.trans h
  · exact (h0.trans (hush_replyTrigger _ _)).disc.trans h
  · exact (h1.trans (hush_grantNoIter _ _ _)).disc.trans h
  · exact (h1.trans (hush_grantIter _ _ _)).disc.trans h
  · exact (h1.trans (hush_grantIter _ _ _)).disc.trans h
  · exact (h1.trans (hush_finishGrant _ _ _ _)).disc.trans h

/-- trying to answer a pending request -/
theorem go_grant {F : Prop} (f : Fed) (t : FedId) (r : Fed) (he : f.state = .executing) (hs : r.state = f.state) (hm : f.mode = false)
    (ht : r.tc = (f.tc.checkTimeGrant t).1) (hm' : r.mode = (f.tc.checkTimeGrant t).2.returnable) : Go F f r := by
  have hres := grant_results f.tc t
  have houtc := checkTimeGrant_outcome f.tc t
  intro hf hl hp
  have hinfo : r.tc.info = f.tc.info := by
    rw [ht]
    rcases houtc with ⟨_, _, _, h4⟩ | ⟨_, h2⟩ | ⟨_, _, _, _, _, h4⟩ | ⟨_, _, _, _, _, h4⟩
    · exact congrArg Core.info h4
    · exact congrArg Core.info h2
    · exact congrArg Core.info h4
    · split at h4 <;> exact congrArg Core.info h4
  have hjoin : r.tc.dynamicJoining = f.tc.dynamicJoining := by
    rw [ht]
    rcases houtc with ⟨_, _, _, h4⟩ | ⟨_, h2⟩ | ⟨_, _, _, _, _, h4⟩ | ⟨_, _, _, _, _, h4⟩
    · exact congrArg Core.dynamicJoining h4
    · exact congrArg Core.dynamicJoining h2
    · exact congrArg Core.dynamicJoining h4
    · split at h4 <;> exact congrArg Core.dynamicJoining h4
  have hpol : Pol F f := fun _ => hinfo ▸ hp (hs.trans he)
  have hpo := hpol he
  have hnh : (f.tc.checkTimeGrant t).2 ≠ .halted := fun hh =>
    not_live_disc (r := r) (by rw [ht]; exact halted_disc _ _ hh) hl
  have hfl : f.floor = f.tc.pot := by unfold Fed.floor; rw [if_pos he, hm]; rfl
  have hrd : (f.tc.checkTimeGrant t).1.disconnected = false := ht ▸ hl.1
  have hfd : f.tc.disconnected = false := by
    cases hd : f.tc.disconnected with
    | false => rfl
    | true => rw [disc_checkTimeGrant _ _ hd] at hrd; cases hrd
  have g := hf ⟨hfd, by rw [he]; simp⟩ hpol
  obtain ⟨gp, gn⟩ := g.pend he hm
  have gl := g.last
  have g0 := g.floor
  have gt := g.time he
  rw [hfl] at gl gn g0
  by_cases hcp : (f.tc.checkTimeGrant t).2 = .continueProcessing
  · have hcc : r.tc.core = f.tc.core := by rw [ht]; exact grant_continue_core _ _ hcp
    have hmr : r.mode = false := by rw [hm', hcp]; rfl
    have hrf : r.floor = f.tc.pot := by unfold Fed.floor; rw [if_pos (hs.trans he), hmr, pot_core hcc]; rfl
    obtain ⟨k1, k2⟩ := say_checkTimeGrant (F := F) f.tc t hpo gp.iter g0 (Int.le_refl _) _ rfl (fun h => absurd hcp h)
    obtain ⟨l, h1, h2⟩ := k1.out
    refine ⟨⟨l, by rw [ht]; exact h1, by rw [hrf]; exact h2 hrd⟩, ⟨hfd, by rw [he]; simp⟩, hpol, by rw [hfl, hrf]; exact Int.le_refl _, ?_⟩
    exact ⟨hjoin.trans g.join, by rw [hrf, ht]; exact k1.last gl, fun e => absurd (hs.trans he) e, fun _ => GoodTime.congr hcc gt,
      by rw [hrf]; exact g0, fun _ _ => ⟨gp.congr hcc, by rw [hrf, ht]; exact k2⟩⟩
  · have hmr : r.mode = true := by
      rw [hm']
      rcases hres with h | h | h | h
      · exact absurd h hcp
      · rw [h]; rfl
      · rw [h]; rfl
      · exact absurd h hnh
    have hrf : r.floor = r.tc.granted + r.tc.info.outputDelay := by unfold Fed.floor; rw [if_pos (hs.trans he), hmr]; rfl
    have hle := pot_le_granted f.tc t gt gp hcp hnh
    rw [← ht, ← hrf] at hle
    have hod := gt.delta
    obtain ⟨k1, k2⟩ := say_checkTimeGrant (F := F) (B := r.floor) f.tc t hpo gp.iter (by omega) hle _ rfl
      (fun _ _ => by rw [hrf, hinfo, ht]; omega)
    obtain ⟨l, h1, h2⟩ := k1.out
    refine ⟨⟨l, by rw [ht]; exact h1, h2 hrd⟩, ⟨hfd, by rw [he]; simp⟩, hpol, by rw [hfl]; exact hle, ?_⟩
    exact ⟨hjoin.trans g.join, by rw [ht]; exact k1.last (lastOk_mono gl hle), fun e => absurd (hs.trans he) e,
      fun _ => by rw [ht]; exact (grant_mono f.tc t gt gp.req).1, by omega, fun _ e => by rw [hmr] at e; cases e⟩

theorem go_tryGrant {F : Prop} (f : Fed) (t : FedId) (he : f.state = .executing) : Go F f (f.tryGrant t).1 := by
  unfold tryGrant
  split
  · rename_i hm
    have hm : f.mode = false := by simpa using hm
    exact go_grant f t _ he rfl hm rfl (by simp [hm])
  · exact .refl _

theorem execGrant_next (u : TC) (hj : u.dynamicJoining = false) :
    (u.execGrant .nextStep).granted = 0 ∧ (u.execGrant .nextStep).grantBase = 0 ∧ (u.execGrant .nextStep).dynamicJoining = false := by
  unfold execGrant
  rw [if_pos (by rw [hj]; rfl)]
  exact ⟨rfl, rfl, hj⟩

/-- entering executing mode -/
theorem go_entry {F : Prop} (f : Fed) (t : FedId) (r : Fed) (hs : f.state = .initializing)
    (hr : r.state = .executing) (hm : r.mode = true) (ht : r.tc = (f.tc.checkExecEntry t).1) (hn : (f.tc.checkExecEntry t).2 = .nextStep) :
    Go F f r := by
  intro hf hl hp
  have hns : f.state ≠ .executing := by rw [hs]; simp
  have hd : r.tc.disconnected = f.tc.disconnected := by rw [ht]; exact (hush_checkExecEntry _ _).disc
  have hlf : f.live := ⟨hd ▸ hl.1, by rw [hs]; simp⟩
  have hpf : Pol F f := fun e => absurd e hns
  have g := hf hlf hpf
  have e1 : f.floor = 0 := by unfold Fed.floor; rw [if_neg hns]
  have gl := g.last
  rw [e1] at gl
  have hpr := hp hr
  have core : r.tc.granted = 0 ∧ r.tc.grantBase = 0 ∧ r.tc.dynamicJoining = false := by
    rw [ht]
    unfold checkExecEntry at hn ⊢
    split at hn
    · cases hn
    · split at hn
      · cases hn
      · rename_i h1 h2
        rw [if_neg h1, if_neg h2]
        have hc := core_execDecision' { f.tc with needSendAll := false } f.tc.needSendAll
        have hj : (({ f.tc with needSendAll := false } : TC).execDecision f.tc.needSendAll).1.dynamicJoining = false :=
          (congrArg Core.dynamicJoining hc).trans g.join
        dsimp only at hn ⊢
        rw [hn]
        unfold execContinue
        rw [if_neg (by simp)]
        exact execGrant_next _ hj
  have hrf : r.floor = r.tc.info.outputDelay := by
    unfold Fed.floor; rw [if_pos hr, hm, core.1]; simp
  have h0 : 0 ≤ r.floor := by rw [hrf]; exact hpr.delta.2.2.1
  have hsay := say_checkExecEntry (F := F) (B := r.floor) f.tc t g.join h0
  obtain ⟨l, h1, h2⟩ := hsay.out
  refine ⟨⟨l, by rw [ht]; exact h1, h2 (ht ▸ hl.1)⟩, hlf, hpf, by rw [e1]; exact h0, ?_⟩
  exact ⟨core.2.2, by rw [ht]; exact hsay.last (lastOk_mono gl h0), fun e => absurd hr e,
    fun _ => ⟨by rw [core.1, core.2.1], by rw [core.1]; decide, hpr.delta, hpr.offset⟩, h0, fun _ e => by rw [hm] at e; cases e⟩

theorem checkExecEntry_stay (a : TC) (t : FedId) (h : (a.checkExecEntry t).2 ≠ .nextStep) (hj : a.dynamicJoining = false) :
    (a.checkExecEntry t).1.executionMode = a.executionMode ∧ (a.checkExecEntry t).1.dynamicJoining = a.dynamicJoining := by
  have h1 : ∀ (u : TC) (t m : FedId) (r : Int), (u.sendUpdatedExecRequest t m r).executionMode = u.executionMode ∧
      (u.sendUpdatedExecRequest t m r).dynamicJoining = u.dynamicJoining := by
    intro u t m r; unfold sendUpdatedExecRequest; dsimp only; split <;> exact ⟨rfl, rfl⟩
  have h2 : ∀ (u : TC) (t m : FedId), (u.replyExec t m).executionMode = u.executionMode ∧
      (u.replyExec t m).dynamicJoining = u.dynamicJoining := by
    intro u t m; unfold replyExec; repeat' split
    all_goals first | exact ⟨rfl, rfl⟩ | exact h1 _ _ _ _
  have h3 : ∀ (u : TC) (t : FedId), (u.execNotReady t).executionMode = u.executionMode ∧
      (u.execNotReady t).dynamicJoining = u.dynamicJoining := by
    intro u t; unfold execNotReady; dsimp only; repeat' split
    all_goals first | exact ⟨rfl, rfl⟩ | exact h1 _ _ _ _ | exact h2 _ _ _
  have h4 : ∀ (u : TC) (t : FedId) (s : Bool) (p : MPR), (u.execContinue t s p).executionMode = u.executionMode ∧
      (u.execContinue t s p).dynamicJoining = u.dynamicJoining := by
    intro u t s p; unfold execContinue; dsimp only; repeat' split
    all_goals first | exact ⟨rfl, rfl⟩ | exact h1 _ _ _ _ | exact h2 _ _ _
  have h5 : ∀ (u : TC) (p : MPR), p ≠ .nextStep → u.dynamicJoining = false → (u.execGrant p).executionMode = u.executionMode ∧
      (u.execGrant p).dynamicJoining = u.dynamicJoining := by
    intro u p hp hj; unfold execGrant; dsimp only; repeat' split
    all_goals first | exact ⟨rfl, rfl⟩ | exact absurd rfl hp
  unfold checkExecEntry at h ⊢
  split
  · exact ⟨rfl, rfl⟩
  · split
    · exact h3 _ _
    · rename_i k1 k2
      rw [if_neg k1, if_neg k2] at h
      dsimp only at h ⊢
      have hc := core_execDecision' { a with needSendAll := false } a.needSendAll
      have e1 : (({ a with needSendAll := false } : TC).execDecision a.needSendAll).1.executionMode = a.executionMode := congrArg Core.executionMode hc
      have e2 : (({ a with needSendAll := false } : TC).execDecision a.needSendAll).1.dynamicJoining = a.dynamicJoining := congrArg Core.dynamicJoining hc
      obtain ⟨x1, x2⟩ := h5 _ _ h (e2.trans hj)
      obtain ⟨y1, y2⟩ := h4 ((({ a with needSendAll := false } : TC).execDecision a.needSendAll).1.execGrant
        (({ a with needSendAll := false } : TC).execDecision a.needSendAll).2.2) t
        (({ a with needSendAll := false } : TC).execDecision a.needSendAll).2.1 (({ a with needSendAll := false } : TC).execDecision a.needSendAll).2.2
      exact ⟨y1.trans (x1.trans e1), y2.trans (x2.trans e2)⟩

theorem go_stay {F : Prop} (f : Fed) (t : FedId) (r : Fed) (hs : f.state = .initializing) (hr : r.state = .initializing)
    (ht : r.tc = (f.tc.checkExecEntry t).1) (hn : (f.tc.checkExecEntry t).2 ≠ .nextStep) : Go F f r := by
  intro hf hl hp
  have hd : r.tc.disconnected = f.tc.disconnected := by rw [ht]; exact (hush_checkExecEntry _ _).disc
  have hlf : f.live := ⟨hd ▸ hl.1, by rw [hs]; simp⟩
  have g := hf hlf (fun e => by rw [hs] at e; cases e)
  obtain ⟨k1, k2⟩ := checkExecEntry_stay f.tc t hn g.join
  refine Go.before (by rw [hs]; simp) (by rw [hr]; simp) (fun _ => hlf) ?_ ?_ ?_ hf hl hp
  · intro h; rw [ht, k2]; exact h
  · intro _ h; rw [ht, k1]; exact h
  · intro hj _; rw [ht]; exact say_checkExecEntry _ _ hj (Int.le_refl _)

theorem go_execCheck {F : Prop} (f : Fed) (cmd : Msg) : Go F f (f.execCheck cmd).1 := by
  unfold execCheck
  dsimp only
  split
  · exact .refl _
  · rename_i hs
    have hs : f.state = .initializing := by simpa using hs
    split
    · generalize hq : (if cmd.action = .execRequest then cmd.source else invalidFed) = t
      split
      · rename_i hn
        exact go_stay f t _ hs hs rfl (by rw [hn]; simp)
      · rename_i hn
        exact go_entry f t _ hs rfl rfl rfl hn
      · rename_i hn
        have h1 : Go F f { f with tc := (f.tc.checkExecEntry t).1 } := go_stay f t _ hs hs rfl (by rw [hn]; simp)
        split
        · have h2 : Say F 0 (f.tc.checkExecEntry t).1 (f.tc.checkExecEntry t).1.sendUpdatedExecRequest := say_sendUpdatedExecRequest _ _ _ _
          have hd : (f.tc.checkExecEntry t).1.sendUpdatedExecRequest.disconnected = (f.tc.checkExecEntry t).1.disconnected :=
            (hush_sendUpdatedExecRequest _ _ _ _).disc
          refine h1.trans (Go.before ?_ ?_ (fun x => ⟨hd.symm.trans x.1, x.2⟩) ?_ ?_ (fun _ _ => h2))
          · show f.state ≠ _; rw [hs]; simp
          · show f.state ≠ _; rw [hs]; simp
          · intro h; unfold sendUpdatedExecRequest; dsimp only; split <;> exact h
          · intro _ h; unfold sendUpdatedExecRequest; dsimp only; split <;> exact h
        · exact h1
      · rename_i h1 h2 h3
        rcases checkExecEntry_result f.tc t with e | e | e
        · exact absurd e h2
        · exact absurd e h1
        · exact absurd e h3
    · exact .refl _

theorem go_disconnect {F : Prop} (f r : Fed) (ht : r.tc = f.tc.disconnect) : Go F f r :=
  Go.left (not_live_disc (by rw [ht]; exact disconnect_disc _))

theorem core_enteringExecMode_pre (a : TC) (m : IterReq) : (a.enteringExecMode m).executionMode = a.executionMode ∧
    (a.enteringExecMode m).dynamicJoining = a.dynamicJoining ∧ (a.enteringExecMode m).disconnected = a.disconnected := by
  refine ⟨?_, ?_, (hush_enteringExecMode a m).disc⟩
  all_goals unfold enteringExecMode; dsimp only; repeat' split
  all_goals rfl

theorem go_same {F : Prop} (f r : Fed) (hs : f.state ≠ .executing) (hr : r.state ≠ .executing) (ht : r.tc = f.tc)
    (hl : r.live → f.live) : Go F f r :=
  Go.before hs hr hl (fun h => by rw [ht]; exact h) (fun _ h => by rw [ht]; exact h) (fun _ _ => by rw [ht]; exact .refl _)

theorem go_same' {F : Prop} (f r : Fed) (hs : f.state = .created) (hr : r.state = .created ∨ r.state = .initializing) (ht : r.tc = f.tc) :
    Go F f r :=
  go_same f r (by rw [hs]; simp) (by rcases hr with h | h <;> rw [h] <;> simp) ht (fun x => ⟨ht ▸ x.1, .inl hs⟩)

theorem go_enteringExecMode {F : Prop} (f : Fed) (m : IterReq) (hs : f.state ≠ .executing) (b : Bool) :
    Go F f { f with tc := f.tc.enteringExecMode m, mode := b } := by
  obtain ⟨h1, h2, h3⟩ := core_enteringExecMode_pre f.tc m
  exact Go.before hs hs (fun h => ⟨h3.symm.trans h.1, h.2⟩) (fun h => h2.trans h) (fun _ h => h1.trans h)
    (fun _ _ => say_enteringExecMode _ _)

theorem go_processDependencyUpdate {F : Prop} (f : Fed) (cmd : Msg) : Go F f { f with tc := f.tc.processDependencyUpdate cmd } :=
  Go.quiet rfl rfl (core_processDependencyUpdate _ _).1 (fun _ _ _ => say_processDependencyUpdate _ _)
    (fun h => (hush_processDependencyUpdate _ _).disc.symm.trans h)

theorem go_coordinator {F : Prop} (f : Fed) (cmd : Msg) (hf : cmd.action ≠ .forceTimeGrant) (hj : ¬ joins cmd)
    (ho : f.state = .executing → ¬ (cmd.action = .execRequest ∧ cmd.source = f.tc.self ∧ cmd.indicator = true)) :
    Go F f (f.coordinator cmd).1 := by
  have hm := go_processTimeMessage (F := F) f cmd hf
  have hdu := go_processDependencyUpdate (F := F) f cmd
  unfold coordinator
  dsimp only
  repeat' split
  all_goals first
    | exact .refl _
    | exact hm
    | exact hdu
    | exact go_disconnect _ _ rfl
    | exact hm.trans (go_execCheck _ _)
    | exact go_execCheck _ _
    | (rename_i h; exact hm.trans (go_tryGrant _ _ (by simpa using h)))
    | (rename_i h _; exact hm.trans (go_tryGrant _ _ (by simpa using h)))
    | (rename_i h; exact go_tryGrant _ _ (by simpa using h))
    | (refine Go.left (not_live_state ?_); first | exact .inl rfl | exact .inr (.inl rfl) | exact .inr (.inr rfl))
    | skip
  · rename_i h1 _ _ h2; exact absurd ⟨h1, h2⟩ hj
  · rename_i h1 h2 _ _; exact go_same' _ _ h2 (.inl h2) rfl
  · rename_i h1 _ _ h2; exact absurd ⟨h1, h2⟩ hj
  · rename_i h1 h2 _ _; exact go_same' _ _ h2 (.inr rfl) rfl
  · rename_i h1 h2 _ _; exact go_enteringExecMode f _ (fun e => ho e ⟨h1, h2⟩) _
  · rename_i h1 h2 _ _; exact go_enteringExecMode f _ (fun e => ho e ⟨h1, h2⟩) _
  · rename_i h1 h2 _; exact go_enteringExecMode f _ (fun e => ho e ⟨h1, h2⟩) _
  · rename_i h1 _; exact absurd h1 hf

theorem go_stateChange {F : Prop} (s : FedState) (f : Fed) (hm : f.state = .executing → f.mode = true ∨ s = .executing) :
    Go F f (stateChange s f).1 := by
  unfold stateChange
  split
  · exact .refl _
  · rename_i hne
    split
    · rename_i hs
      split
      · exact Go.left (not_live_state (.inl rfl))
      · intro hf hl hp
        have hlf : f.live := ⟨by
          have : (enterInitialization f.tc).disconnected = f.tc.disconnected := by
            unfold enterInitialization; split <;> rfl
          rw [← this]; exact hl.1, .inr (.inl hs)⟩
        have g := hf hlf (fun e => by rw [hs] at e; cases e)
        have he : enterInitialization f.tc = f.tc := by unfold enterInitialization; rw [if_neg (by rw [g.join]; simp)]
        exact go_same _ _ (by rw [hs]; simp) (by show f.state ≠ _; rw [hs]; simp) he (fun _ => hlf) hf hl hp
    · rename_i hs
      have hmt : f.mode = true := by
        rcases hm hs with h | h
        · exact h
        · rw [hs] at hne; exact absurd h hne
      intro hf hl hp
      have g := hf hl hp
      have hfl : ({ f with tc := f.tc.updateTimeFactors } : Fed).floor = f.floor := by
        unfold Fed.floor; dsimp only; rw [if_pos hs, if_pos hs, hmt]; rfl
      refine ⟨⟨[], by simp; rfl, by simp⟩, hl, hp, by rw [hfl]; exact Int.le_refl _, ?_⟩
      exact ⟨g.join, by rw [hfl]; exact g.last, fun e => absurd hs e, fun e => GoodTime.congr (core_updateTimeFactors _).1 (g.time e),
        by rw [hfl]; exact g.floor, fun _ e => by rw [show ({ f with tc := f.tc.updateTimeFactors } : Fed).mode = f.mode from rfl, hmt] at e; cases e⟩
    · exact .refl _

theorem go_secondSwitch {F : Prop} (f : Fed) (cmd : Msg) (hf : cmd.action ≠ .forceTimeGrant) (x : Fed × MPR)
    (h : secondSwitch f cmd = some x) : Go F f x.1 := by
  have hm := go_processTimeMessage (F := F) f cmd hf
  unfold secondSwitch at h
  dsimp only at h
  repeat' split at h
  all_goals cases h
  all_goals first
    | exact .refl _
    | exact hm
    | exact Go.left (not_live_disc (disconnect_disc _))
    | skip
  all_goals
    rename_i he hmode hr
    refine hm.trans (go_grant _ invalidFed _ (by simpa using he) rfl (by simpa using hmode) rfl ?_)
    first | exact hr.symm | (simp only [Bool.not_eq_true] at hr; rw [hr]; simpa using hmode)

theorem tryGrant_state (f : Fed) (t : FedId) : (f.tryGrant t).1.state = f.state := by
  unfold tryGrant; split <;> rfl

theorem execCheck_inControl (f : Fed) (cmd : Msg) (h : (f.execCheck cmd).1.state = .executing) :
    (f.execCheck cmd).1.mode = true ∨ f.state = .executing := by
  unfold execCheck at h ⊢
  dsimp only at h ⊢
  repeat' split
  all_goals first
    | exact .inl rfl
    | (right; simp_all; done)

/-- executing mode is entered by an exec check, with the user in control -/
theorem coordinator_inControl (f : Fed) (cmd : Msg) (h : (f.coordinator cmd).1.state = .executing) :
    (f.coordinator cmd).1.mode = true ∨ f.state = .executing := by
  have key : ∀ r : Fed × MPR × Msg, r = f.coordinator cmd → r.1.state = .executing → r.1.mode = true ∨ f.state = .executing := by
    intro r hr he
    have hx : ∀ g : Fed, g.state = f.state → (g.execCheck cmd).1.state = .executing →
        (g.execCheck cmd).1.mode = true ∨ f.state = .executing := fun g hg h => by
      rcases execCheck_inControl g cmd h with k | k
      · exact .inl k
      · exact .inr (hg ▸ k)
    unfold coordinator at hr
    dsimp only at hr
    repeat' split at hr
    all_goals subst hr
    all_goals first
      | exact .inr he
      | exact hx _ rfl he
      | (rw [tryGrant_state] at he; exact .inr he)
      | cases he
  exact key _ rfl h

/-- what is handed on for another round is a check, unless the federate has left -/
theorem coordinator_handOn (f : Fed) (cmd : Msg) (h : (f.coordinator cmd).2.1 = .reprocessMessage) :
    (f.coordinator cmd).2.2.action = .execCheck ∨ (f.coordinator cmd).2.2.action = .timeCheck ∨
    ((f.coordinator cmd).1.state = .terminating ∧ ((f.coordinator cmd).2.2.action = .disconnect ∨ (f.coordinator cmd).2.2.action = .disconnectFed)) := by
  have key : ∀ r : Fed × MPR × Msg, r = f.coordinator cmd → r.2.1 = .reprocessMessage →
      r.2.2.action = .execCheck ∨ r.2.2.action = .timeCheck ∨
      (r.1.state = .terminating ∧ (r.2.2.action = .disconnect ∨ r.2.2.action = .disconnectFed)) := by
    intro r hr he
    unfold coordinator at hr
    dsimp only at hr
    repeat' split at hr
    all_goals subst hr
    all_goals first
      | exact .inl rfl
      | exact .inr (.inl rfl)
      | (rename_i h _ _; exact .inr (.inr ⟨rfl, .inl h⟩))
      | (rename_i h _ _; exact .inr (.inr ⟨rfl, .inr h⟩))
      | exact absurd he (tryGrant_result _ _)
      | exact absurd he (execCheck_result _ _)
      | (simp at he; done)
      | (dsimp only at he; split at he <;> cases he)
  exact key _ rfl h

theorem stateChange_left (s : FedState) (f : Fed) (h : f.state = .terminating) : (stateChange s f).1 = f := by
  unfold stateChange
  split
  · rfl
  · split <;> simp_all

theorem go_send {F : Prop} (f : Fed) (m : Msg) (h : m.action = .execCheck ∨ m.action = .timeCheck) : Go F f { f with tc := f.tc.send m } :=
  Go.quiet rfl rfl rfl (fun _ _ _ => .send _ _ (within_other (.inl (by unfold word; rcases h with h | h <;> rw [h])))) id

theorem go_processN {F : Prop} (n : Nat) (f : Fed) (cmd : Msg) (hf : cmd.action ≠ .forceTimeGrant) (hj : ¬ joins cmd)
    (ho : f.state = .executing → ¬ (cmd.action = .execRequest ∧ cmd.source = f.tc.self ∧ cmd.indicator = true)) :
    Go F f (processN n f cmd).1 := by
  induction n generalizing f cmd with
  | zero => exact .refl _
  | succ n ih =>
    have hc := go_coordinator (F := F) f cmd hf hj ho
    have hh := coordinator_handed f cmd
    have hent := coordinator_inControl f cmd
    have hag := coordinator_handOn f cmd
    rw [processN]
    dsimp only
    generalize f.coordinator cmd = c at hc hh hent hag
    have hs := hc.trans (go_stateChange f.state c.1 hent)
    split
    · exact hs
    · split
      · rename_i hcp
        have hcm := hh.1 hcp
        split
        · rename_i x hx
          rw [hcm] at hx
          exact hs.trans (go_secondSwitch _ _ hf _ hx)
        · exact hs.trans (ih _ _ (by simp) (fun h => by cases h.1) (fun _ h => by cases h.1))
      · rename_i hcp
        rcases hag hcp with h | h | ⟨h, h'⟩
        · split
          · exact hs.trans (go_send _ _ (.inl h))
          · exact hs.trans (ih _ _ (by rw [h]; simp) (fun k => nomatch h.symm.trans k.1) (fun _ k => by rw [h] at k; cases k.1))
        · split
          · exact hs.trans (go_send _ _ (.inr h))
          · exact hs.trans (ih _ _ (by rw [h]; simp) (fun k => nomatch h.symm.trans k.1) (fun _ k => by rw [h] at k; cases k.1))
        · have hterm := stateChange_left f.state c.1 h
          split
          · exact Go.left (not_live_state (.inr (.inl (by dsimp only; rw [hterm]; exact h))))
          · refine hs.trans (ih _ _ ?_ ?_ ?_)
            · rcases h' with e | e <;> rw [e] <;> simp
            · intro k; rcases h' with e | e <;> exact nomatch e.symm.trans k.1
            · intro k; rw [hterm, h] at k; cases k
      · exact hs

end Fed

namespace TC

theorem pot_eq {a b : TC} (h1 : b.granted = a.granted) (h2 : b.grantBase = a.grantBase) (h3 : b.requested = a.requested)
    (h4 : b.iterating = a.iterating) (h5 : b.info = a.info) : b.pot = a.pot := by
  unfold pot generateAllowedTime getNextPossibleTime
  rw [h1, h2, h3, h4, h5]

/-- a notification about new data -/
structure Note (F : Prop) (s : Bool) (a b : TC) : Prop where
  still : s = false → b.out = a.out ∧ b.lastSend = a.lastSend
  said : s = true → Policy F a.info → (F → a.iterating = .noIterations) → 0 ≤ a.pot → NextOk F a.pot a →
    Say F a.pot a b ∧ NextOk F a.pot b

theorem Note.of {F : Prop} {s : Bool} {a b : TC} (h1 : b.lastSend = a.lastSend) (h2 : b.disconnected = a.disconnected)
    (h3 : b.next = a.next ∧ b.exec = a.exec ∧ b.info = a.info) (h4 : b.out = a.out) : Note F s a b :=
  ⟨fun _ => ⟨h4, h1⟩, fun _ _ _ _ h => ⟨.of h1 h2 h3 h4, (Say.of h1 h2 h3 h4).fut h⟩⟩

/-- the execution time is recomputed and announced if asked to -/
theorem note_exec {F : Prop} (s : Bool) (a v : TC) (h1 : v.lastSend = a.lastSend) (h2 : v.disconnected = a.disconnected)
    (h3 : v.next = a.next ∧ v.info = a.info) (h4 : v.out = a.out) (h5 : v.pot = a.pot) (h6 : v.iterating = a.iterating) :
    Note F s a (if (v.updateNextExecutionTime.2 && s) = true then v.updateNextExecutionTime.1.sendTimeRequest invalidFed
      else v.updateNextExecutionTime.1) := by
  refine ⟨fun hs => ?_, fun _ hp hi h0 hn => ?_⟩
  · subst hs
    rw [if_neg (by simp)]
    exact ⟨h4, h1⟩
  · have hx : F → v.nextExec + v.info.outputDelay = a.pot := fun hf => by
      rw [nextExec_pot (F := F) v (by rw [h3.2]; exact hp) (by rw [h6]; exact hi) hf, h5]
    have hnx : NextOk F a.pot v.updateNextExecutionTime.1 := by
      refine ⟨?_, fun hf => ?_⟩
      · show v.next ≤ _; rw [h3.1]; exact hn.1
      · show v.nextExec + v.info.outputDelay ≤ _; rw [hx hf]; exact Int.le_refl _
    have hsay : Say F a.pot a v.updateNextExecutionTime.1 :=
      ⟨⟨[], by simp; exact h4, by simp⟩, fun h => by unfold LastOk at h ⊢; rw [← h1] at h; exact h, fun h => h2.symm.trans h, fun _ => hnx⟩
    split
    · have k := say_sendTimeRequest (F := F) v.updateNextExecutionTime.1 invalidFed h0 hnx
      exact ⟨hsay.trans k, k.fut hnx⟩
    · exact ⟨hsay, hnx⟩

theorem note_updateValueTime {F : Prop} (a : TC) (t : Time) (s : Bool) : Note F s a (a.updateValueTime t s) := by
  unfold updateValueTime
  split
  · split <;> exact .of rfl rfl ⟨rfl, rfl, rfl⟩ rfl
  · have key : ∀ u : TC, u.lastSend = a.lastSend → u.disconnected = a.disconnected → u.next = a.next → u.exec = a.exec → u.info = a.info →
        u.out = a.out → u.pot = a.pot → u.iterating = a.iterating → ∀ w : TC,
        w = (if t < u.value then
          let ptime := u.value
          let np := u.getNextPossibleTime
          let v := if u.iterating ≠ .noIterations then (if t ≤ u.granted then u.granted else t) else (if t ≤ np then np else t)
          let tc := { u with value := v }
          if v < ptime ∧ !tc.disconnected then
            let r := tc.updateNextExecutionTime
            if r.2 && s then r.1.sendTimeRequest invalidFed else r.1
          else tc
        else u) → Note F s a w := by
      intro u h1 h2 h3 h4 h5 h6 h7 h8 w hw
      subst hw
      split
      · dsimp only
        generalize (if u.iterating ≠ .noIterations then (if t ≤ u.granted then u.granted else t)
          else (if t ≤ u.getNextPossibleTime then u.getNextPossibleTime else t)) = v
        split
        · exact note_exec s a { u with value := v } h1 h2 ⟨h3, h5⟩ h6 (Eq.trans (pot_eq rfl rfl rfl rfl rfl) h7) h8
        · exact .of h1 h2 ⟨h3, h4, h5⟩ h6
      · exact .of h1 h2 ⟨h3, h4, h5⟩ h6
    refine key (if t ≤ a.granted then { a with hasIterationData := true } else a) ?_ ?_ ?_ ?_ ?_ ?_ ?_ ?_ _ rfl
    all_goals split <;> rfl

theorem note_updateMessageTime {F : Prop} (a : TC) (t : Time) (s : Bool) : Note F s a (a.updateMessageTime t s) := by
  unfold updateMessageTime
  split
  · split <;> exact .of rfl rfl ⟨rfl, rfl, rfl⟩ rfl
  · have key : ∀ u : TC, u.lastSend = a.lastSend → u.disconnected = a.disconnected → u.next = a.next → u.exec = a.exec → u.info = a.info →
        u.out = a.out → u.pot = a.pot → u.iterating = a.iterating → ∀ w : TC,
        w = (if t < u.message then
          let ptime := u.message
          let np := u.getNextPossibleTime
          let v := if u.iterating ≠ .noIterations then (if t ≤ u.granted then u.granted else t) else (if t ≤ np then np else t)
          let tc := { u with message := v }
          if v < ptime ∧ !tc.disconnected then
            let r := tc.updateNextExecutionTime
            if r.2 && s then r.1.sendTimeRequest invalidFed else r.1
          else tc
        else u) → Note F s a w := by
      intro u h1 h2 h3 h4 h5 h6 h7 h8 w hw
      subst hw
      split
      · dsimp only
        generalize (if u.iterating ≠ .noIterations then (if t ≤ u.granted then u.granted else t)
          else (if t ≤ u.getNextPossibleTime then u.getNextPossibleTime else t)) = v
        split
        · exact note_exec s a { u with message := v } h1 h2 ⟨h3, h5⟩ h6 (Eq.trans (pot_eq rfl rfl rfl rfl rfl) h7) h8
        · exact .of h1 h2 ⟨h3, h4, h5⟩ h6
      · exact .of h1 h2 ⟨h3, h4, h5⟩ h6
    refine key (if t ≤ a.granted then { a with hasIterationData := true } else a) ?_ ?_ ?_ ?_ ?_ ?_ ?_ ?_ _ rfl
    all_goals split <;> rfl

end TC

namespace Fed
open TC

theorem go_note {F : Prop} (f r : Fed) (hs : r.state = f.state) (hm : r.mode = f.mode) (hn : Note F (!f.mode) f.tc r.tc)
    (hd : DataOnly f.tc r.tc) (hdisc : r.tc.disconnected = f.tc.disconnected)
    (hv : f.tc.iterating = .noIterations → (r.tc.value = f.tc.value ∨ f.tc.getNextPossibleTime ≤ r.tc.value) ∧
      (r.tc.message = f.tc.message ∨ f.tc.getNextPossibleTime ≤ r.tc.message))
    (hq : f.tc.executionMode = false → r.tc.out = f.tc.out ∧ r.tc.lastSend = f.tc.lastSend) : Go F f r := by
  obtain ⟨v, m, i, d, hc⟩ := hd.h
  have c1 : r.tc.granted = f.tc.granted := congrArg Core.granted hc
  have c2 : r.tc.grantBase = f.tc.grantBase := congrArg Core.grantBase hc
  have c3 : r.tc.requested = f.tc.requested := congrArg Core.requested hc
  have c4 : r.tc.iterating = f.tc.iterating := congrArg Core.iterating hc
  have c5 : r.tc.info = f.tc.info := congrArg Core.info hc
  have hpot := pot_eq c1 c2 c3 c4 c5
  have hnp : r.tc.getNextPossibleTime = f.tc.getNextPossibleTime := by unfold getNextPossibleTime; rw [c1, c2, c5]
  have hfl : r.floor = f.floor := by unfold Fed.floor; rw [hs, hm, hpot, c1, c5]
  intro hf hl hp
  have hlf : f.live := ⟨hdisc ▸ hl.1, hs ▸ hl.2⟩
  have hpf : Pol F f := fun e => c5 ▸ hp (hs.trans e)
  have g := hf hlf hpf
  have stay : r.tc.out = f.tc.out ∧ r.tc.lastSend = f.tc.lastSend → (r.state = .executing → r.mode = false → False) → Adv F f r := by
    rintro ⟨h1, h2⟩ h3
    refine ⟨⟨[], by simp [h1], by simp⟩, hlf, hpf, by rw [hfl]; exact Int.le_refl _, ?_⟩
    refine ⟨(congrArg Core.dynamicJoining hc).trans g.join, ?_, fun e => (congrArg Core.executionMode hc).trans (g.pre (hs ▸ e)),
      fun e => hd.good (g.time (hs ▸ e)), by rw [hfl]; exact g.floor, fun e e' => (h3 e e').elim⟩
    rw [hfl]; unfold LastOk; rw [h2]; exact g.last
  by_cases he : f.state = .executing
  · cases hmode : f.mode with
    | true => exact stay (hn.still (by rw [hmode]; rfl)) (fun _ e => by rw [hm, hmode] at e; cases e)
    | false =>
      obtain ⟨gp, gn⟩ := g.pend he hmode
      have hff : f.floor = f.tc.pot := by unfold Fed.floor; rw [if_pos he, hmode]; rfl
      have g0 := g.floor
      have gl := g.last
      rw [hff] at gn g0 gl
      obtain ⟨k1, k2⟩ := hn.said (by rw [hmode]; rfl) (hpf he) gp.iter g0 gn
      obtain ⟨l, h1, h2⟩ := k1.out
      refine ⟨⟨l, h1, by rw [hfl, hff]; exact h2 hl.1⟩, hlf, hpf, by rw [hfl]; exact Int.le_refl _, ?_⟩
      refine ⟨(congrArg Core.dynamicJoining hc).trans g.join, by rw [hfl, hff]; exact k1.last gl, fun e => absurd (hs.trans he) e,
        fun e => hd.good (g.time he), by rw [hfl, hff]; exact g0, fun _ _ => ⟨⟨by rw [c1, c3]; exact gp.req, fun e => ?_, by rw [c4]; exact gp.iter⟩,
          by rw [hfl, hff]; exact k2⟩⟩
      rw [c4] at e
      obtain ⟨p1, p2, p3⟩ := gp.np e
      obtain ⟨q1, q2⟩ := hv e
      rw [hnp, c3]
      refine ⟨p1, ?_, ?_⟩
      · rcases q1 with q | q
        · rw [q]; exact p2
        · exact q
      · rcases q2 with q | q
        · rw [q]; exact p3
        · exact q
  · exact stay (hq (g.pre he)) (fun e => absurd (hs ▸ e) he)

theorem go_valueTime {F : Prop} (f : Fed) (t : Time) : Go F f { f with tc := f.tc.updateValueTime t (!f.mode) } := by
  refine go_note f _ rfl rfl (note_updateValueTime _ _ _) (dataOnly_updateValueTime _ _ _) (hush_updateValueTime _ _ _).disc ?_ ?_
  · intro hi
    obtain ⟨h1, h2⟩ := updateValueTime_floor f.tc t (!f.mode)
    rw [hi] at h1
    exact ⟨h1, .inl h2⟩
  · intro he
    unfold updateValueTime
    rw [if_pos (by rw [he]; rfl)]
    split <;> exact ⟨rfl, rfl⟩

theorem go_messageTime {F : Prop} (f : Fed) (t : Time) : Go F f { f with tc := f.tc.updateMessageTime t (!f.mode) } := by
  refine go_note f _ rfl rfl (note_updateMessageTime _ _ _) (dataOnly_updateMessageTime _ _ _) (hush_updateMessageTime _ _ _).disc ?_ ?_
  · intro hi
    obtain ⟨h1, h2⟩ := updateMessageTime_floor f.tc t (!f.mode)
    rw [hi] at h1
    exact ⟨.inl h2, h1⟩
  · intro he
    unfold updateMessageTime
    rw [if_pos (by rw [he]; rfl)]
    split <;> exact ⟨rfl, rfl⟩

theorem go_valueArrives {F : Prop} (f : Fed) (cmd : Msg) (hc : cmd.action = .pub) : Go F f (f.valueArrives cmd) := by
  have h := go_valueTime (F := F) f cmd.actionTime
  unfold valueArrives
  dsimp only
  split
  · exact h.trans (go_processTimeMessage _ _ (by rw [hc]; simp))
  · exact h

theorem go_messageArrives {F : Prop} (f : Fed) (cmd : Msg) (hc : cmd.action = .sendMessage) : Go F f (f.messageArrives cmd) := by
  have h := go_messageTime (F := F) f cmd.actionTime
  unfold messageArrives
  dsimp only
  split
  · exact h.trans (go_processTimeMessage _ _ (by rw [hc]; simp))
  · exact h

theorem prep_pend {F : Prop} (a : TC) (t : Time) (it : IterReq) (nv nm : Time) (hg : GoodTime a) (hi : F → it = .noIterations) :
    Pend F (a.prepRequest t it nv nm) ∧ a.granted + a.info.outputDelay ≤ (a.prepRequest t it nv nm).pot := by
  have hnp := nextPossible_ge' a hg
  have hnpe : (a.prepRequest t it nv nm).getNextPossibleTime = a.getNextPossibleTime := rfl
  have hge : ∀ x, x ≤ a.generateAllowedTime x := fun x => allowedTime_ge _ _ _
  by_cases hn : it = .noIterations
  · have hreq : a.getNextPossibleTime ≤ (a.prepRequest t it nv nm).requested := by
      show _ ≤ (if it ≠ .noIterations then _ else (if t < a.getNextPossibleTime then a.getNextPossibleTime else t))
      rw [if_neg (by simp [hn])]
      split <;> omega
    have hfl : a.getNextPossibleTime ≤ (if a.info.uninterruptible then a.generateAllowedTime (a.prepRequest t it nv nm).requested
        else a.getNextPossibleTime) := by
      split
      · have := hge (a.prepRequest t it nv nm).requested; omega
      · exact Int.le_refl _
    have hmax : ∀ x fl : Time, a.getNextPossibleTime ≤ fl → a.getNextPossibleTime ≤ (if x > fl then x else fl) := by
      intro x fl h; split <;> omega
    have hval : (a.prepRequest t it nv nm).value = (if nv > (if a.info.uninterruptible then a.generateAllowedTime (a.prepRequest t it nv nm).requested
        else a.getNextPossibleTime) then nv else (if a.info.uninterruptible then a.generateAllowedTime (a.prepRequest t it nv nm).requested
        else a.getNextPossibleTime)) := by
      unfold prepRequest; simp only [hn, ne_eq, not_true_eq_false, if_false]
    have hmes : (a.prepRequest t it nv nm).message = (if nm > (if a.info.uninterruptible then a.generateAllowedTime (a.prepRequest t it nv nm).requested
        else a.getNextPossibleTime) then nm else (if a.info.uninterruptible then a.generateAllowedTime (a.prepRequest t it nv nm).requested
        else a.getNextPossibleTime)) := by
      unfold prepRequest; simp only [hn, ne_eq, not_true_eq_false, if_false]
    refine ⟨⟨Int.le_trans hnp hreq, fun _ => ⟨hreq, ?_, ?_⟩, fun _ => hn⟩, ?_⟩
    · rw [hnpe, hval]; exact hmax _ _ hfl
    · rw [hnpe, hmes]; exact hmax _ _ hfl
    · unfold pot
      rw [if_neg (by show ¬ (it ≠ _); simp [hn])]
      show _ ≤ a.info.outputDelay + (if a.info.uninterruptible then a.generateAllowedTime (a.prepRequest t it nv nm).requested else a.getNextPossibleTime)
      omega
  · refine ⟨⟨?_, fun e => absurd e hn, hi⟩, ?_⟩
    · show a.granted ≤ (if it ≠ .noIterations then (if t < a.granted ∨ it = .forceIteration then a.granted else t) else _)
      rw [if_pos hn]
      split <;> omega
    · unfold pot
      rw [if_pos (by show it ≠ _; exact hn)]
      show _ ≤ a.info.outputDelay + a.granted
      omega

/-- the user asks for a time -/
theorem go_ask {F : Prop} (f : Fed) (t : Time) (it : IterReq) (nv nm : Time) (he : f.state = .executing) (hm : f.mode = true)
    (hi : F → it = .noIterations) : Go F f { f with tc := f.tc.timeRequest t it nv nm, mode := false } := by
  intro hf hl hp
  have hc := (timeRequest_core f.tc t it nv nm).1
  have hdisc : (f.tc.timeRequest t it nv nm).disconnected = f.tc.disconnected := (hush_timeRequest _ _ _ _ _).disc
  have hlf : f.live := ⟨hdisc.symm.trans hl.1, hl.2⟩
  have hinfo : (f.tc.timeRequest t it nv nm).info = f.tc.info := congrArg Core.info hc
  have hpf : Pol F f := fun e => by have := hp e; rw [show ({ f with tc := f.tc.timeRequest t it nv nm, mode := false } : Fed).tc.info = _ from hinfo] at this; exact this
  have hpo := hpf he
  have g := hf hlf hpf
  have gt := g.time he
  obtain ⟨hpd, hpot⟩ := prep_pend (F := F) f.tc t it nv nm gt hi
  have hff : f.floor = f.tc.granted + f.tc.info.outputDelay := by unfold Fed.floor; rw [if_pos he, hm]; rfl
  have hrf : ({ f with tc := f.tc.timeRequest t it nv nm, mode := false } : Fed).floor = (f.tc.prepRequest t it nv nm).pot := by
    unfold Fed.floor; dsimp only; rw [if_pos he, if_neg (by simp), pot_core hc]
  have g0 := g.floor
  rw [hff] at g0
  have hnx : NextOk F (f.tc.prepRequest t it nv nm).pot (f.tc.prepRequest t it nv nm).updateTimeFactors :=
    nextOk_updateTimeFactors _ hpo hpd.iter
  have hs1 : Say F (f.tc.prepRequest t it nv nm).pot f.tc (f.tc.prepRequest t it nv nm).updateTimeFactors :=
    ⟨⟨[], by simp; rfl, by simp⟩, fun h => h, fun h => h, fun _ => hnx⟩
  have hsay : Say F (f.tc.prepRequest t it nv nm).pot f.tc (f.tc.timeRequest t it nv nm) ∧
      NextOk F (f.tc.prepRequest t it nv nm).pot (f.tc.timeRequest t it nv nm) := by
    unfold timeRequest
    dsimp only
    split
    · exact ⟨hs1, hnx⟩
    · have k := say_sendTimeRequest (F := F) (f.tc.prepRequest t it nv nm).updateTimeFactors invalidFed (by omega) hnx
      exact ⟨hs1.trans k, k.fut hnx⟩
  obtain ⟨l, h1, h2⟩ := hsay.1.out
  have gl := g.last
  rw [hff] at gl
  refine ⟨⟨l, h1, by rw [hrf]; exact h2 hl.1⟩, hlf, hpf, by rw [hff, hrf]; exact hpot, ?_⟩
  refine ⟨(congrArg Core.dynamicJoining hc).trans g.join, by rw [hrf]; exact hsay.1.last (lastOk_mono gl hpot), fun e => absurd he e,
    fun _ => ?_, by rw [hrf]; omega, fun _ _ => ⟨hpd.congr hc, by rw [hrf]; exact hsay.2⟩⟩
  exact ⟨((congrArg Core.grantBase hc).trans gt.base).trans (congrArg Core.granted hc).symm,
    by rw [show ({ f with tc := f.tc.timeRequest t it nv nm, mode := false } : Fed).tc.granted = f.tc.granted from congrArg Core.granted hc]; exact gt.range,
    by dsimp only; rw [hinfo]; exact gt.delta, by dsimp only; rw [hinfo]; exact gt.offset⟩

/-- the events that keep announcements binding: no forced grants, no joining a running federation, settings
changed only before executing mode, and (`F`) only plain time requests -/
def calm (F : Prop) (f : Fed) : FedOp → Prop
  | .msg cmd => cmd.action ≠ .forceTimeGrant ∧ ¬ joins cmd
  | .timeRequest _ it _ _ => F → it = .noIterations
  | .setTime _ _ | .setFlag _ _ | .setMaxIterations _ => f.state ≠ .executing
  | _ => True

theorem go_set {F : Prop} (f : Fed) (u : TC) (hs : f.state ≠ .executing) (h2 : u.out = f.tc.out)
    (h3 : u.disconnected = f.tc.disconnected) (h4 : u.executionMode = f.tc.executionMode) (h5 : u.dynamicJoining = f.tc.dynamicJoining)
    (h6 : LastOk F 0 f.tc → LastOk F 0 u) : Go F f { f with tc := u } := by
  intro hf hl hp
  have hlf : f.live := ⟨h3 ▸ hl.1, hl.2⟩
  have hpf : Pol F f := fun e => absurd e hs
  have g := hf hlf hpf
  have e1 : f.floor = 0 := by unfold Fed.floor; rw [if_neg hs]
  have e2 : ({ f with tc := u } : Fed).floor = 0 := by unfold Fed.floor; dsimp only; rw [if_neg hs]
  have gl := g.last
  rw [e1] at gl
  exact ⟨⟨[], by simp [h2], by simp⟩, hlf, hpf, by rw [e1, e2]; exact Int.le_refl _,
    ⟨h5.trans g.join, by rw [e2]; exact h6 gl, fun e => h4.trans (g.pre hs), fun e => absurd e hs, by rw [e2]; exact Int.le_refl _, fun e => absurd e hs⟩⟩

theorem go_step {F : Prop} (limit : Int) (f : Fed) (o : FedOp) (hs : o.sane f.tc.self) (hc : calm F f o) : Go F f (f.step limit o).1 := by
  cases o with
  | msg cmd =>
    exact go_processN 4 f cmd hc.1 hc.2 (fun _ h => hs.2 ⟨.inl h.1, h.2⟩)
  | timeRequest t it nv nm =>
    simp only [step]
    split
    · rename_i h
      have hi : F → f.limitIter limit it = .noIterations := fun hf => by
        unfold limitIter; rw [hc hf]; simp
      exact (go_ask f t _ nv nm h.1 h.2 hi).trans (go_processN 4 _ _ (by simp) (fun h => nomatch h.1) (fun _ h => nomatch h.1))
    · exact .refl _
  | execRequest it =>
    simp only [step]
    split
    · rename_i h
      have ha : (setIterationFlags { action := .execRequest, source := f.tc.self, dest := f.tc.self, indicator := true } it).action = .execRequest :=
        setIterationFlags_action _ _
      refine go_processN 4 f _ (by rw [ha]; simp) (fun h => nomatch ha.symm.trans h.1) (fun e => ?_)
      rw [h.1] at e; cases e
    · exact .refl _
  | value cmd => exact go_valueArrives f cmd hs.1
  | message cmd => exact go_messageArrives f cmd hs.1
  | setTime p v =>
    simp only [step]
    split
    · exact .refl _
    · apply go_set f _ hc <;> cases p <;> first | rfl | exact id | (intro h; exact h)
  | setFlag o v =>
    simp only [step]
    apply go_set f _ hc <;> cases o <;> first | rfl | exact id | (intro h; exact h)
  | setMaxIterations v =>
    simp only [step]
    apply go_set f _ hc <;> first | rfl | exact id | (intro h; exact h)

end Fed
end Verif
