import Verif.Lemmas.Told
/-! A federate's floor: the earliest time at which it may still act, and what it tells others, step by step. -/
namespace Verif
open Causal
namespace TC

/-- the settings under which announcements bind: restrictive time policy, or (`F`) uninterruptible -/
structure Policy (F : Prop) (info : TCOptions) : Prop where
  kind : info.restrictive = true ∨ F
  firm : F → info.uninterruptible = true
  delta : 1 ≤ info.timeDelta ∧ 0 ≤ info.inputDelay ∧ 0 ≤ info.outputDelay ∧ 0 ≤ info.period
  offset : 0 ≤ info.offset ∧ info.offset ≤ maxVal

/-- the earliest time stamp of data sent after a pending request is answered -/
def pot (tc : TC) : Time := tc.info.outputDelay +
  (if tc.iterating ≠ .noIterations then tc.granted
   else if tc.info.uninterruptible then tc.generateAllowedTime tc.requested else tc.getNextPossibleTime)

theorem pot_core {a b : TC} (h : b.core = a.core) : b.pot = a.pot := by
  have h1 : b.granted = a.granted := congrArg Core.granted h
  have h2 : b.grantBase = a.grantBase := congrArg Core.grantBase h
  have h3 : b.requested = a.requested := congrArg Core.requested h
  have h4 : b.iterating = a.iterating := congrArg Core.iterating h
  have h5 : b.info = a.info := congrArg Core.info h
  unfold pot generateAllowedTime getNextPossibleTime
  rw [h1, h2, h3, h4, h5]

/-- the pending request respects the next possible time -/
structure Pend (F : Prop) (tc : TC) : Prop where
  req : tc.granted ≤ tc.requested
  np : tc.iterating = .noIterations → tc.getNextPossibleTime ≤ tc.requested ∧ tc.getNextPossibleTime ≤ tc.value ∧
    tc.getNextPossibleTime ≤ tc.message
  iter : F → tc.iterating = .noIterations

theorem Pend.congr {F : Prop} {a b : TC} (h : b.core = a.core) (p : Pend F a) : Pend F b := by
  have h1 : b.granted = a.granted := congrArg Core.granted h
  have h2 : b.grantBase = a.grantBase := congrArg Core.grantBase h
  have h3 : b.requested = a.requested := congrArg Core.requested h
  have h4 : b.iterating = a.iterating := congrArg Core.iterating h
  have h5 : b.info = a.info := congrArg Core.info h
  have h6 : b.value = a.value := congrArg Core.value h
  have h7 : b.message = a.message := congrArg Core.message h
  have hn : b.getNextPossibleTime = a.getNextPossibleTime := by unfold getNextPossibleTime; rw [h1, h2, h5]
  exact ⟨by rw [h1, h3]; exact p.req, by rw [h4, hn, h3, h6, h7]; exact p.np, by rw [h4]; exact p.iter⟩

theorem nextEvent_le {F : Prop} (tc : TC) (hp : Policy F tc.info) (hi : F → tc.iterating = .noIterations) :
    tc.nextEvent ≤ tc.pot := by
  unfold nextEvent pot
  dsimp only
  by_cases hu : tc.info.uninterruptible = true
  · rw [if_pos hu]
    by_cases hn : tc.iterating = .noIterations
    · simp only [hn, if_true, ne_eq, not_true_eq_false, if_false, hu]; omega
    · have hr : tc.info.restrictive = true := by
        rcases hp.kind with h | h
        · exact h
        · exact absurd (hi h) hn
      simp only [hn, if_false, ne_eq, not_false_eq_true, if_true, hr, Bool.not_true, Bool.false_eq_true, false_and, and_false]
      omega
  · have hr : tc.info.restrictive = true := by
      rcases hp.kind with h | h
      · exact h
      · exact absurd (hp.firm h) hu
    rw [if_neg hu]
    simp only [hr, Bool.not_true, Bool.false_eq_true, false_and, and_false, if_false, hu]
    by_cases hn : tc.iterating = .noIterations <;> simp only [hn, ne_eq, not_true_eq_false, not_false_eq_true, if_true, if_false] <;> omega

theorem nextExec_pot {F : Prop} (tc : TC) (hp : Policy F tc.info) (hi : F → tc.iterating = .noIterations) (hf : F) :
    tc.nextExec + tc.info.outputDelay = tc.pot := by
  unfold nextExec pot
  rw [if_pos (hp.firm hf), if_pos (hi hf), if_neg (by simp [hi hf]), if_pos (hp.firm hf)]
  omega

theorem nextOk_updateTimeFactors {F : Prop} (tc : TC) (hp : Policy F tc.info) (hi : F → tc.iterating = .noIterations) :
    NextOk F tc.pot tc.updateTimeFactors := by
  have hc := (core_updateTimeFactors tc).1
  refine ⟨?_, fun hf => ?_⟩
  · have : tc.updateTimeFactors.next = tc.updateAggregates.nextEvent := rfl
    rw [this]
    have hc' : tc.updateAggregates.core = tc.core := rfl
    have := nextEvent_le (F := F) tc.updateAggregates hp hi
    rw [pot_core hc'] at this
    exact this
  · have : tc.updateTimeFactors.exec = tc.updateTimeFactors.nextExec := by
      unfold updateTimeFactors updateNextExecutionTime
      exact nextExec_core rfl
    rw [this, show tc.updateTimeFactors.info = tc.info from rfl, nextExec_core hc, nextExec_pot tc hp hi hf]
    exact Int.le_refl _

theorem say_updateTimeFactors {F : Prop} {B : Time} (tc : TC) (h : NextOk F B tc → NextOk F B tc.updateTimeFactors) :
    Say F B tc tc.updateTimeFactors := ⟨⟨[], by simp; rfl, by simp⟩, fun h => h, fun h => h, h⟩

theorem nextOk_mono {F : Prop} {B C : Time} {tc : TC} (h : NextOk F B tc) (hc : B ≤ C) : NextOk F C tc :=
  ⟨by have := h.1; omega, fun hf => by have := h.2 hf; omega⟩

theorem lastOk_mono {F : Prop} {B C : Time} {tc : TC} (h : LastOk F B tc) (hc : B ≤ C) : LastOk F C tc :=
  ⟨by have := h.1; omega, fun hf => by have := h.2.1 hf; omega, h.2.2⟩

theorem Say.mono {F : Prop} {B C : Time} {a b : TC} (h : Say F B a b) (hc : B ≤ C) (hl : LastOk F B a) (hn : NextOk F B a) :
    Say F C a b := by
  obtain ⟨l, h1, h2⟩ := h.out
  exact ⟨⟨l, h1, fun hd p hp m hm => (h2 hd p hp m hm).mono hc⟩, fun _ => lastOk_mono (h.last hl) hc, h.disc,
    fun _ => nextOk_mono (h.fut hn) hc⟩

/-! ### The grant check -/

theorem say_replyTrigger {F : Prop} {B : Time} (a : TC) (g : FedId) (h0 : 0 ≤ B) (h : NextOk F B a) :
    Say F B a (a.replyTrigger g) := by
  unfold replyTrigger
  split
  · exact say_sendTimeRequest a g h0 h
  · exact .refl _

theorem say_applyRestriction {F : Prop} {B : Time} (a : TC) (c : RestrictionCheck) (r s : Bool) (ok : MPR) :
    Say F B a (a.applyRestriction c r s ok).1 := by
  unfold applyRestriction
  repeat' split
  all_goals first | exact .refl _ | exact .of rfl rfl ⟨rfl, rfl, rfl⟩ rfl

theorem say_iterDecision {F : Prop} {B : Time} (a : TC) (s : Bool) : Say F B a (a.iterDecision s).1 := by
  unfold iterDecision
  repeat' split
  all_goals first | exact .refl _ | exact say_applyRestriction _ _ _ _ _

theorem say_step {F : Prop} {B : Time} {a : TC} (u : TC) (h1 : u.lastSend = a.lastSend)
    (h2 : u.disconnected = a.disconnected) (h3 : u.next = a.next) (h4 : u.info = a.info) (h5 : u.out = a.out)
    (h6 : F → u.exec = a.exec) (hg : u.updateTimeGrant.granted ≤ B) : Say F B a u.updateTimeGrant :=
  Say.trans ⟨⟨[], by rw [h5]; simp, by simp⟩, fun h => by unfold LastOk; rw [h1]; exact h, fun h => h2.symm.trans h,
    fun h => ⟨by rw [h3]; exact h.1, fun hf => by rw [h6 hf, h4]; exact h.2 hf⟩⟩ (say_updateTimeGrant u hg)

theorem disconnect_disc (a : TC) : a.disconnect.disconnected = true := by
  unfold disconnect
  split
  · assumption
  · dsimp only
    split <;> rfl

theorem say_finishGrant {F : Prop} {B : Time} (a : TC) (g : FedId) (s : Bool) (p : MPR) (h0 : 0 ≤ B) (h : NextOk F B a)
    (hi : F → a.iterating = .noIterations) (r : TC × MPR) (hr : r = a.finishGrant g s p)
    (hg : r.2 ≠ .continueProcessing → r.2 ≠ .halted → r.1.granted ≤ B) : Say F B a r.1 := by
  unfold finishGrant at hr
  split at hr
  · subst hr
    dsimp only
    repeat' split
    all_goals first | exact .refl _ | exact say_sendTimeRequest a _ h0 h
  · subst hr
    exact say_step _ rfl rfl rfl rfl rfl (fun _ => rfl) (hg (by simp) (by simp))
  · split at hr
    · rename_i hf
      subst hr
      exact say_step _ rfl rfl rfl rfl rfl (fun hF => by rw [hi hF] at hf; cases hf) (hg (by simp) (by simp))
    · subst hr
      exact say_step _ rfl rfl rfl rfl rfl (fun _ => rfl) (hg (by simp) (by simp))
  · subst hr
    exact .refl _

theorem say_grantNext {F : Prop} {B : Time} (a : TC) (hg : a.grantNext.granted ≤ B) : Say F B a a.grantNext :=
  say_step _ rfl rfl rfl rfl rfl (fun _ => rfl) hg

theorem say_grantNoIter {F : Prop} {B : Time} (a : TC) (g : FedId) (s : Bool) (h0 : 0 ≤ B) (h : NextOk F B a)
    (hi : F → a.iterating = .noIterations) (r : TC × MPR) (hr : r = a.grantNoIter g s)
    (hg : r.2 ≠ .continueProcessing → r.2 ≠ .halted → r.1.granted ≤ B) : Say F B a r.1 := by
  unfold grantNoIter at hr
  split at hr
  · subst hr; exact say_grantNext a (hg (by simp) (by simp))
  · split at hr
    · split at hr
      · subst hr; exact say_grantNext a (hg (by simp) (by simp))
      · split at hr
        · subst hr; exact say_grantNext a (hg (by simp) (by simp))
        · exact say_finishGrant _ _ _ _ h0 h hi r hr hg
    · exact say_finishGrant _ _ _ _ h0 h hi r hr hg

theorem say_grantIter {F : Prop} {B : Time} (a : TC) (g : FedId) (s : Bool) (h0 : 0 ≤ B) (h : NextOk F B a)
    (hi : F → a.iterating = .noIterations) (r : TC × MPR) (hr : r = a.grantIter g s)
    (hg : r.2 ≠ .continueProcessing → r.2 ≠ .halted → r.1.granted ≤ B) : Say F B a r.1 := by
  unfold grantIter at hr
  split at hr
  · split at hr
    · subst hr; exact say_step _ rfl rfl rfl rfl rfl (fun _ => rfl) (hg (by simp) (by simp))
    · split at hr
      · subst hr; exact say_step _ rfl rfl rfl rfl rfl (fun _ => rfl) (hg (by simp) (by simp))
      · subst hr; exact say_step _ rfl rfl rfl rfl rfl (fun _ => rfl) (hg (by simp) (by simp))
  · split at hr
    · have hd := say_iterDecision (F := F) (B := B) a s
      have hc := (core_iterDecision a s).1
      exact hd.trans (say_finishGrant _ _ _ _ h0 (hd.fut h) (fun hf => (congrArg Core.iterating hc).trans (hi hf)) r hr hg)
    · exact say_finishGrant _ _ _ _ h0 h hi r hr hg

theorem say_checkTimeGrant {F : Prop} {B : Time} (a : TC) (g : FedId) (hp : Policy F a.info)
    (hi : F → a.iterating = .noIterations) (h0 : 0 ≤ B) (hB : a.pot ≤ B)
    (r : TC × MPR) (hr : r = a.checkTimeGrant g)
    (hg : r.2 ≠ .continueProcessing → r.2 ≠ .halted → r.1.granted ≤ B) :
    Say F B a r.1 ∧ NextOk F B r.1 := by
  have hu : NextOk F B a.updateTimeFactors := nextOk_mono (nextOk_updateTimeFactors a hp hi) hB
  have hs : Say F B a a.updateTimeFactors := say_updateTimeFactors a (fun _ => hu)
  suffices h : Say F B a.updateTimeFactors r.1 from ⟨hs.trans h, h.fut hu⟩
  have hi' : F → a.updateTimeFactors.iterating = .noIterations := hi
  unfold checkTimeGrant at hr
  dsimp only at hr
  generalize a.updateTimeFactors = u at hr hu hi' ⊢
  split at hr
  · subst hr
    have h1 : Say F B u { u with granted := maxVal, grantBase := maxVal } := .of rfl rfl ⟨rfl, rfl, rfl⟩ rfl
    exact h1.trans (say_disconnect _)
  · split at hr
    · subst hr; exact say_replyTrigger u g h0 hu
    · split at hr
      · subst hr; exact say_replyTrigger u g h0 hu
      · have h1 : Say F B u { u with needSendAll := false } := .of rfl rfl ⟨rfl, rfl, rfl⟩ rfl
        split at hr
        all_goals first
          | exact h1.trans (say_grantNoIter { u with needSendAll := false } _ _ h0 hu hi' r hr hg)
          | exact h1.trans (say_grantIter { u with needSendAll := false } _ _ h0 hu hi' r hr hg)
          | exact h1.trans (say_finishGrant { u with needSendAll := false } _ _ _ h0 hu hi' r hr hg)

/-- an answered request is answered with a time that respects everything told before -/
theorem pot_le_granted {F : Prop} (a : TC) (g : FedId) (hgt : GoodTime a) (hp : Pend F a)
    (h : (a.checkTimeGrant g).2 ≠ .continueProcessing) (h' : (a.checkTimeGrant g).2 ≠ .halted) :
    a.pot ≤ (a.checkTimeGrant g).1.granted + (a.checkTimeGrant g).1.info.outputDelay := by
  have hnp := nextPossible_ge' a hgt
  have hge := nextExec_ge a hgt hp.req
  have hod := hgt.delta
  have key : a.iterating ≠ .forceIteration → a.pot ≤ a.nextExec + a.info.outputDelay := by
    intro _
    unfold pot
    by_cases hn : a.iterating = .noIterations
    · obtain ⟨h1, h2, h3⟩ := hp.np hn
      rw [if_neg (by simp [hn])]
      unfold nextExec
      have ha := fun t => allowedTime_ge a.info a.grantBase t
      split
      · rename_i hu
        omega
      · dsimp only
        have hmin : a.getNextPossibleTime ≤ min a.message a.value := by omega
        unfold generateAllowedTime
        generalize hx : (if min a.message a.value < cTerm then min a.message a.value + a.info.inputDelay else min a.message a.value) = x
        have hxn : a.getNextPossibleTime ≤ x := by rw [← hx]; split <;> omega
        generalize hy : (if min a.requested x ≤ a.granted then a.getNextPossibleTime else min a.requested x) = y
        have hyn : a.getNextPossibleTime ≤ y := by rw [← hy]; split <;> omega
        have := ha y
        split
        · split <;> omega
        · omega
    · rw [if_pos (by simpa using hn)]; omega
  rcases checkTimeGrant_outcome a g with ⟨h1, h2, h3, h4⟩ | ⟨h1, _⟩ | ⟨h1, hi, _, _, _, h4⟩ | ⟨h1, hi, _, _, _, h4⟩
  · exact absurd h1 h'
  · exact absurd h1 h
  · rw [show (a.checkTimeGrant g).1.granted = a.nextExec from congrArg Core.granted h4,
      show (a.checkTimeGrant g).1.info = a.info from congrArg Core.info h4]
    exact key hi
  · split at h4
    · rename_i hf
      rw [show (a.checkTimeGrant g).1.granted = a.granted from congrArg Core.granted h4,
        show (a.checkTimeGrant g).1.info = a.info from congrArg Core.info h4]
      unfold pot
      rw [if_pos (by rw [hf]; simp)]; omega
    · rename_i hf
      rw [show (a.checkTimeGrant g).1.granted = a.nextExec from congrArg Core.granted h4,
        show (a.checkTimeGrant g).1.info = a.info from congrArg Core.info h4]
      exact key hf

end TC
end Verif
