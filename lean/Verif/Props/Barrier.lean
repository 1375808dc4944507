import Verif.Lemmas.BlockFree
import Verif.Props.Grants
/-!
# C05: time barriers

Barriers are set and cleared by commands carrying an identifier.  The barriers in force are defined from the
history of commands alone; the theorems speak about the times handed to the user.
-/
namespace Verif
namespace Barrier
open Fed TC Grants

/-- The barriers in force (identifier to time) after one more event: set, replaced or cleared by
identifier. -/
def next (act : Int → Option Time) : FedOp → Int → Option Time
  | .msg cmd => fun i =>
    if (cmd.action = .timeBlock ∨ cmd.action = .timeBarrier) ∧ i = cmd.messageID then some cmd.actionTime
    else if (cmd.action = .timeUnblock ∨ cmd.action = .timeBarrierClear) ∧ i = cmd.messageID then none
    else act i
  | _ => act

/-- The barriers in force after a history. -/
def inForce (ops : List FedOp) : Int → Option Time := ops.foldl next (fun _ => none)

/-! ### the block list follows the history -/

structure Follows (act : Int → Option Time) (b : List (Time × Int) × Time) : Prop where
  has : ∀ i t, act i = some t → (t, i) ∈ b.1
  only : ∀ t i, (t, i) ∈ b.1 → t = maxVal ∨ act i = some t
  nodup : (b.1.map Prod.snd).Nodup
  min : b.2 = minBlock b.1

theorem setBlock_mem (bs : List (Time × Int)) (id : Int) (t : Time) (h : (bs.map Prod.snd).Nodup) (x : Time × Int) :
    x ∈ setBlock bs id t ↔ x = (t, id) ∨ (x ∈ bs ∧ x.2 ≠ id) := by
  induction bs with
  | nil => simp [setBlock]
  | cons b bs ih =>
    simp only [List.map_cons, List.nodup_cons, List.mem_map, not_exists, not_and] at h
    unfold setBlock
    split
    · rename_i hb
      simp only [List.mem_cons]
      constructor
      · rintro (h' | h')
        · exact Or.inl h'
        · exact Or.inr ⟨Or.inr h', fun e => h.1 x h' (e.trans hb.symm)⟩
      · rintro (h' | ⟨h' | h', e⟩)
        · exact Or.inl h'
        · subst h'; exact absurd hb e
        · exact Or.inr h'
    · rename_i hb
      simp only [List.mem_cons, ih h.2]
      constructor
      · rintro (h' | h' | h')
        · subst h'; exact Or.inr ⟨Or.inl rfl, hb⟩
        · exact Or.inl h'
        · exact Or.inr ⟨Or.inr h'.1, h'.2⟩
      · rintro (h' | ⟨h' | h', e⟩)
        · exact Or.inr (Or.inl h')
        · exact Or.inl h'
        · exact Or.inr (Or.inr ⟨h', e⟩)

theorem setBlock_ids (bs : List (Time × Int)) (id : Int) (t : Time) (i : Int) :
    i ∈ (setBlock bs id t).map Prod.snd ↔ i = id ∨ i ∈ bs.map Prod.snd := by
  induction bs with
  | nil => simp [setBlock]
  | cons b bs ih =>
    unfold setBlock
    split
    · rename_i hb; simp only [List.map_cons, List.mem_cons, hb]
      constructor
      · rintro (h | h)
        · exact Or.inl h
        · exact Or.inr (Or.inr h)
      · rintro (h | h | h)
        · exact Or.inl h
        · exact Or.inl h
        · exact Or.inr h
    · simp only [List.map_cons, List.mem_cons, ih]
      constructor
      · rintro (h | h | h)
        · exact Or.inr (Or.inl h)
        · exact Or.inl h
        · exact Or.inr (Or.inr h)
      · rintro (h | h | h)
        · exact Or.inr (Or.inl h)
        · exact Or.inl h
        · exact Or.inr (Or.inr h)

theorem setBlock_nodup (bs : List (Time × Int)) (id : Int) (t : Time) (h : (bs.map Prod.snd).Nodup) :
    ((setBlock bs id t).map Prod.snd).Nodup := by
  induction bs with
  | nil => simp [setBlock]
  | cons b bs ih =>
    simp only [List.map_cons, List.nodup_cons] at h
    unfold setBlock
    split
    · rename_i hb; simp only [List.map_cons, List.nodup_cons]; exact ⟨hb ▸ h.1, h.2⟩
    · rename_i hb
      simp only [List.map_cons, List.nodup_cons]
      refine ⟨fun hm => ?_, ih h.2⟩
      rcases (setBlock_ids bs id t b.2).1 hm with e | e
      · exact hb e
      · exact h.1 e

theorem minBlock_le (bs : List (Time × Int)) : ∀ b ∈ bs, minBlock bs ≤ b.1 := by
  induction bs with
  | nil => intro b h; cases h
  | cons c cs ih =>
    intro b h
    cases cs with
    | nil =>
      simp only [List.mem_singleton] at h; subst h; exact Int.le_refl _
    | cons d ds =>
      unfold minBlock
      simp only
      rcases List.mem_cons.1 h with h | h
      · subst h; split <;> omega
      · have := ih b h
        split <;> omega

theorem minBlock_mem (bs : List (Time × Int)) : minBlock bs = maxVal ∨ ∃ i, (minBlock bs, i) ∈ bs := by
  induction bs with
  | nil => exact Or.inl rfl
  | cons c cs ih =>
    cases cs with
    | nil => exact Or.inr ⟨c.2, List.mem_singleton.2 rfl⟩
    | cons d ds =>
      unfold minBlock
      simp only
      split
      · rcases ih with h | ⟨i, h⟩
        · exact Or.inl h
        · exact Or.inr ⟨i, List.mem_cons_of_mem _ h⟩
      · exact Or.inr ⟨c.2, List.mem_cons_self⟩

theorem follows_msg {act : Int → Option Time} {f : Fed} (h : Follows act f.tc.blocks) (cmd : Msg) :
    Follows (next act (.msg cmd)) (f.tc.blocksAfter cmd) := by
  have hnd : (f.tc.timeBlocks.map Prod.snd).Nodup := h.nodup
  have hset : ∀ v : Time, Follows (fun i => if i = cmd.messageID then some v else act i)
      (setBlock f.tc.timeBlocks cmd.messageID v, minBlock (setBlock f.tc.timeBlocks cmd.messageID v)) := by
    intro v
    refine ⟨?_, ?_, setBlock_nodup _ _ _ h.nodup, rfl⟩
    · intro i t hit
      simp only [setBlock_mem _ _ _ hnd]
      split at hit
      · rename_i e; cases hit; exact Or.inl (by rw [e])
      · rename_i e; exact Or.inr ⟨h.has i t hit, e⟩
    · intro t i hm
      simp only [setBlock_mem _ _ _ hnd] at hm
      rcases hm with e | ⟨hm, e⟩
      · cases e; right; simp
      · rw [if_neg e]; exact h.only t i hm
  have hclear : Follows (fun i => if i = cmd.messageID then none else act i)
      (setBlock f.tc.timeBlocks cmd.messageID maxVal, minBlock (setBlock f.tc.timeBlocks cmd.messageID maxVal)) := by
    refine ⟨?_, ?_, setBlock_nodup _ _ _ h.nodup, rfl⟩
    · intro i t hit
      simp only [setBlock_mem _ _ _ hnd]
      split at hit
      · cases hit
      · rename_i e; exact Or.inr ⟨h.has i t hit, e⟩
    · intro t i hm
      simp only [setBlock_mem _ _ _ hnd] at hm
      rcases hm with e | ⟨hm, e⟩
      · cases e; exact Or.inl rfl
      · rw [if_neg e]; exact h.only t i hm
  have hempty : f.tc.timeBlocks.isEmpty = true → Follows (fun i => if i = cmd.messageID then none else act i)
      (f.tc.timeBlocks, maxVal) := by
    intro he
    have he' : f.tc.timeBlocks = [] := List.isEmpty_iff.1 he
    have ha : ∀ i, act i = none := by
      intro i
      cases hx : act i with
      | none => rfl
      | some t => have := h.has i t hx; change (t, i) ∈ f.tc.timeBlocks at this; rw [he'] at this; cases this
    rw [he']
    refine ⟨?_, ?_, List.nodup_nil, rfl⟩
    · intro i t hit; simp only [ha] at hit; split at hit <;> cases hit
    · intro t i hm; cases hm
  unfold blocksAfter processBlock blocks
  cases ha : cmd.action
  case timeBlock =>
    simp only [next, ha, isBlockCmd, reduceCtorEq, true_or, or_self, true_and, false_and, if_false]
    exact hset cmd.actionTime
  case timeBarrier =>
    simp only [next, ha, isBlockCmd, reduceCtorEq, or_true, or_self, true_and, false_and, if_false]
    exact hset cmd.actionTime
  case timeUnblock =>
    simp only [next, ha, isBlockCmd, reduceCtorEq, true_or, or_self, true_and, false_and, if_false]
    simp only [show ((Cmd.timeUnblock == Cmd.timeBlock || Cmd.timeUnblock == Cmd.timeBarrier || Cmd.timeUnblock == Cmd.timeUnblock ||
      Cmd.timeUnblock == Cmd.timeBarrierClear) = true) from by decide, if_true]
    split
    · rename_i he; exact hempty he
    · exact hclear
  case timeBarrierClear =>
    simp only [next, ha, isBlockCmd, reduceCtorEq, or_true, or_self, true_and, false_and, if_false]
    simp only [show ((Cmd.timeBarrierClear == Cmd.timeBlock || Cmd.timeBarrierClear == Cmd.timeBarrier || Cmd.timeBarrierClear == Cmd.timeUnblock ||
      Cmd.timeBarrierClear == Cmd.timeBarrierClear) = true) from by decide, if_true]
    split
    · rename_i he; exact hempty he
    · exact hclear
  all_goals
    simp only [next, ha, isBlockCmd, reduceCtorEq, or_self, false_and, if_false]
    exact h

theorem request_blocks (f : Fed) (t : Time) (it : IterReq) (nv nm : Time) :
    (f.request t it nv nm).1.tc.blocks = f.tc.blocks := by
  unfold request
  rw [process_blocks]
  exact (timeRequest_core f.tc t it nv nm).2

theorem follows_step {limit : Int} {act : Int → Option Time} {f : Fed} (h : Follows act f.tc.blocks) (o : FedOp)
    (ho : o.sane f.tc.self) : Follows (next act o) (f.step limit o).1.tc.blocks := by
  have same : ∀ b, b = f.tc.blocks → Follows act b := fun b e => e ▸ h
  cases o with
  | msg cmd => simp only [step]; rw [process_blocks]; exact follows_msg h cmd
  | timeRequest t it nv nm =>
    simp only [step, next]
    split
    · exact same _ (request_blocks _ _ _ _ _)
    · exact h
  | execRequest it =>
    simp only [step, next]
    split
    · apply same
      unfold requestExec
      rw [process_blocks]
      cases it <;> rfl
    · exact h
  | value cmd => exact same _ (dataOnly_valueArrives f cmd ho.1).hb
  | message cmd => exact same _ (dataOnly_messageArrives f cmd ho.1).hb
  | setTime p v => simp only [step, next]; split <;> exact h
  | setFlag p v => exact h
  | setMaxIterations v => exact h

theorem follows_run (limit : Int) (ops : List FedOp) : ∀ (act : Int → Option Time) (f : Fed), Inv f →
    (∀ o ∈ ops, o.sane f.tc.self) → Follows act f.tc.blocks →
    Follows (ops.foldl next act) (f.run limit ops).tc.blocks := by
  induction ops with
  | nil => intro act f _ _ h; exact h
  | cons o os ih =>
    intro act f hi ho h
    have hok := step_ok limit f o hi (ho o List.mem_cons_self)
    refine ih _ _ hok.inv ?_ (follows_step h o (ho o List.mem_cons_self))
    intro o' ho'
    rw [hok.self]; exact ho o' (List.mem_cons_of_mem _ ho')

theorem follows_initial (s : FedId) (a b c : Bool) : Follows (fun _ => none) (initial s a b c).tc.blocks :=
  ⟨(fun _ _ h => nomatch h), (fun _ _ h => nomatch h), List.nodup_nil, rfl⟩

/-! ### no grant at or past a barrier -/

theorem process_barrier (f : Fed) (cmd : Msg) (hi : Inv f) (hs : f.state = .executing) (ho : ¬ ownExec f cmd)
    (hf : cmd.action ≠ .forceTimeGrant) (hr : (f.process cmd).1.state = .executing)
    (hp : (f.process cmd).2 = .nextStep ∨ (f.process cmd).2 = .iterating) :
    (f.process cmd).1.tc.granted < (f.process cmd).1.tc.block ∨ cTerm ≤ (f.process cmd).1.tc.block := by
  have e := process_effect f cmd hs ho hi.self
  generalize f.process cmd = r at e hr hp
  cases e with
  | quiet _ _ _ _ h => rcases h with h | h | h <;> rw [h] at hp <;> rcases hp with hp | hp <;> cases hp
  | attempt g trig hm hg _ _ ht hp' _ =>
    have hblk : r.1.tc.block = g.block := by rw [ht]; exact congrArg Prod.snd (checkTimeGrant_blocks g trig)
    have gg := GoodTime.congr hg hi.good
    have hpd := hi.pend hs hm
    rw [show f.tc.granted = g.granted from (congrArg Core.granted hg).symm,
      show f.tc.requested = g.requested from (congrArg Core.requested hg).symm] at hpd
    have hge := nextExec_ge g gg hpd
    have key : ¬ (g.block ≤ g.nextExec ∧ g.block < cTerm) → r.1.tc.granted ≤ g.nextExec →
        r.1.tc.granted < r.1.tc.block ∨ cTerm ≤ r.1.tc.block := by
      intro h1 h2; rw [hblk]; omega
    rcases checkTimeGrant_outcome g trig with ⟨h, _⟩ | ⟨h, _⟩ | ⟨h, _, hb, _, _, hc⟩ | ⟨h, _, hb, _, _, hc⟩
    · rw [hp', h] at hp; rcases hp with hp | hp <;> cases hp
    · rw [hp', h] at hp; rcases hp with hp | hp <;> cases hp
    · apply key hb
      rw [ht]
      exact Int.le_of_eq (congrArg Core.granted hc)
    · apply key hb
      rw [ht]
      split at hc
      · have : (g.checkTimeGrant trig).1.granted = g.granted := congrArg Core.granted hc
        omega
      · exact Int.le_of_eq (congrArg Core.granted hc)
  | forced ha => exact absurd ha hf
  | exit h =>
    exfalso
    rcases h with h | h | h <;> rw [h] at hr <;> cases hr

/-- An event that is a forced grant. -/
def Forced : FedOp → Prop
  | .msg cmd => cmd.action = .forceTimeGrant
  | _ => False

/-- **C05** (no grant at or past a barrier).  After any history, an event other than a forced grant that hands
an executing federate a time `T` (an ordinary or an iterating grant) has `T` before every barrier in force. -/
theorem C05_before_barrier (limit : Int) (self : FedId) (ok ng gt : Bool) (pre : List FedOp) (o : FedOp)
    (hid : self ≠ parentBroker) (hops : ∀ o' ∈ pre ++ [o], o'.sane self) (hf : ¬ Forced o) (f : Fed)
    (hfd : f = (Fed.initial self ok ng gt).run limit pre) (hs : f.state = .executing)
    (hp : (f.step limit o).2 = .nextStep ∨ (f.step limit o).2 = .iterating) (T : Time)
    (hT : returned (f.step limit o) = some T) (i : Int) (B : Time) (hB : inForce (pre ++ [o]) i = some B)
    (hend : B < cTerm) : T < B := by
  have hi0 := initial_inv self ok ng gt hid
  have hrun := run_ok limit _ pre hi0 (fun o' h => hops o' (List.mem_append_left _ h))
  have hfol := follows_run limit pre _ _ hi0 (fun o' h => hops o' (List.mem_append_left _ h)) (follows_initial self ok ng gt)
  rw [← hfd] at hrun hfol
  obtain ⟨hi, _, hself⟩ := hrun
  have ho : o.sane f.tc.self := by rw [hself]; exact hops o (by simp)
  have hfol2 := follows_step (limit := limit) hfol o ho
  have hB' : next (pre.foldl next fun _ => none) o i = some B := by
    unfold inForce at hB; rw [List.foldl_append] at hB; exact hB
  have hle : (f.step limit o).1.tc.block ≤ B := by
    rw [show (f.step limit o).1.tc.block = _ from hfol2.min]
    exact minBlock_le _ _ (hfol2.has i B hB')
  have hok := step_ok limit f o hi ho
  have hex : (f.step limit o).1.state = .executing := by
    unfold returned at hT
    split at hT
    · assumption
    · cases hT
  have hTg := hok.ret T hT
  have key : (f.step limit o).1.tc.granted < (f.step limit o).1.tc.block ∨ cTerm ≤ (f.step limit o).1.tc.block := by
    cases o with
    | msg cmd =>
      simp only [step] at hp hex ⊢
      exact process_barrier f cmd hi hs (fun h => ho.2 ⟨Or.inl h.1, h.2.1, h.2.2⟩) hf hex hp
    | timeRequest t it nv nm =>
      simp only [step] at hp hex ⊢
      split at hp
      · rename_i hc
        rw [if_pos hc] at hex ⊢
        obtain ⟨h1, h2, h3, h4, h5, _, _, h6⟩ := timeRequest_fields f.tc t (f.limitIter limit it) nv nm
        have hpend := pending_start f t (f.limitIter limit it) nv nm hs
        refine process_barrier _ _ ?_ hs (fun h => nomatch h.1) (by simp) hex hp
        refine ⟨⟨by rw [hpend.base, hpend.granted]; exact hi.good.base, by rw [hpend.granted]; exact hi.good.range,
          by rw [hpend.info]; exact hi.good.delta, by rw [hpend.info]; exact hi.good.offset⟩,
          by rw [hpend.self]; exact hi.self, fun _ _ => ?_⟩
        rw [hpend.granted, hpend.requested]
        have := nextPossible_ge' f.tc hi.good
        unfold asked
        repeat' split
        all_goals omega
      · rcases hp with hp | hp <;> cases hp
    | execRequest it =>
      simp only [step] at hp
      rw [if_neg (by rw [hs]; simp)] at hp
      rcases hp with hp | hp <;> cases hp
    | value cmd => rcases hp with hp | hp <;> cases hp
    | message cmd => rcases hp with hp | hp <;> cases hp
    | setTime p v => simp only [step] at hp; split at hp <;> rcases hp with hp | hp <;> cases hp
    | setFlag p v => rcases hp with hp | hp <;> cases hp
    | setMaxIterations v => rcases hp with hp | hp <;> cases hp
  omega

/-- A federate held by a barrier: 8 allows everything up to 20, the request for 10 stands against a barrier at
5; clearing it releases the grant. -/
def barrierMsg (a : Cmd) (i : Int) (t : Time) : FedOp :=
  .msg { action := a, source := 1, dest := 7, messageID := i, actionTime := t }

def heldHistory : List FedOp :=
  demoStart ++ [barrierMsg .timeBarrier 1 5, .timeRequest 10 .noIterations maxVal maxVal, fromEight .timeRequest 20]

example : (Fed.initial 7 true false false).grants 100 heldHistory = [0] ∧ inForce heldHistory 1 = some 5 ∧
    (Fed.initial 7 true false false).grants 100 (heldHistory ++ [barrierMsg .timeBarrierClear 1 0]) = [0, 10] := by
  decide

/-- The hypotheses of `C05_before_barrier` on a history with a barrier at 15 and a grant at 10. -/
example : (∀ o ∈ demoStart ++ [barrierMsg .timeBarrier 1 15, .timeRequest 10 .noIterations maxVal maxVal] ++
      [fromEight .timeRequest 20], o.sane 7) ∧
    (((Fed.initial 7 true false false).run 100 (demoStart ++ [barrierMsg .timeBarrier 1 15,
      .timeRequest 10 .noIterations maxVal maxVal])).step 100 (fromEight .timeRequest 20)).2 = .nextStep ∧
    returned (((Fed.initial 7 true false false).run 100 (demoStart ++ [barrierMsg .timeBarrier 1 15,
      .timeRequest 10 .noIterations maxVal maxVal])).step 100 (fromEight .timeRequest 20)) = some 10 ∧
    inForce (demoStart ++ [barrierMsg .timeBarrier 1 15, .timeRequest 10 .noIterations maxVal maxVal] ++
      [fromEight .timeRequest 20]) 1 = some 15 := by
  refine ⟨?_, by decide, by decide, by decide⟩
  intro o ho
  simp only [demoStart, fromEight, barrierMsg, List.cons_append, List.nil_append, List.mem_cons,
    List.not_mem_nil, or_false] at ho
  rcases ho with rfl | rfl | rfl | rfl | rfl | rfl | rfl | rfl <;> simp [FedOp.sane, Msg.sane, maxVal]

/-- The exception: a federate with nothing left to wait for that asks for the end of the simulation is told the
simulation is over even though a barrier at 5 is in force (src/helics/core/TimeCoordinator.cpp:625-633 tests for the
end before it looks at the barrier). -/
example : (Fed.initial 7 true false false).grants 100
      (demoStart ++ [barrierMsg .timeBarrier 1 5, fromEight .disconnect 0, .timeRequest maxVal .noIterations maxVal maxVal])
      = [0, maxVal] ∧
    inForce (demoStart ++ [barrierMsg .timeBarrier 1 5, fromEight .disconnect 0,
      .timeRequest maxVal .noIterations maxVal maxVal]) 1 = some 5 := by decide

/-- **C05** (the earliest governs).  The federate's barrier time is the earliest barrier in force: not later than
any of them and equal to one of them, or the end of time. -/
theorem C05_earliest (limit : Int) (self : FedId) (ok ng gt : Bool) (ops : List FedOp)
    (hid : self ≠ parentBroker) (hops : ∀ o ∈ ops, o.sane self) :
    (∀ i B, inForce ops i = some B → ((Fed.initial self ok ng gt).run limit ops).tc.block ≤ B) ∧
    (((Fed.initial self ok ng gt).run limit ops).tc.block = maxVal ∨
      ∃ i, inForce ops i = some ((Fed.initial self ok ng gt).run limit ops).tc.block) := by
  have h := follows_run limit ops _ _ (initial_inv self ok ng gt hid) hops (follows_initial self ok ng gt)
  have hm : ((Fed.initial self ok ng gt).run limit ops).tc.block =
    minBlock ((Fed.initial self ok ng gt).run limit ops).tc.timeBlocks := h.min
  refine ⟨fun i B hB => ?_, ?_⟩
  · rw [hm]; exact minBlock_le _ _ (h.has i B hB)
  · rcases minBlock_mem ((Fed.initial self ok ng gt).run limit ops).tc.timeBlocks with e | ⟨i, e⟩
    · exact Or.inl (hm.trans e)
    · rw [hm]
      rcases h.only _ _ e with e' | e'
      · exact Or.inl e'
      · exact Or.inr ⟨i, e'⟩

/-- The federate as if no barrier had ever been set. -/
def unbarred (f : Fed) : Fed := { f with tc := f.tc.setB ([], maxVal) }

theorem process_timeCheck (f : Fed) (cmd : Msg) (hs : f.state = .executing) (hm : f.mode = false)
    (ha : cmd.action = .timeCheck) (n : Nat) :
    processN (n + 1) f cmd = ({ f with tc := (f.tc.checkTimeGrant invalidFed).1
                                       mode := (f.tc.checkTimeGrant invalidFed).2.returnable },
      (f.tc.checkTimeGrant invalidFed).2) := by
  unfold processN coordinator
  simp only [ha, hs, ne_eq, not_true_eq_false, if_false]
  unfold tryGrant
  simp only [hm, Bool.not_false, if_true, Bool.false_or]
  unfold stateChange
  simp only [hs, if_true, Bool.false_eq_true, if_false]
  rcases grant_results f.tc invalidFed with h | h | h | h
  · rw [h]; simp only [secondSwitch, ha]
  all_goals rw [h]

theorem process_clear (f : Fed) (cmd : Msg) (hs : f.state = .executing) (hm : f.mode = false)
    (ha : cmd.action = .timeBarrierClear ∨ cmd.action = .timeUnblock) (hd : cmd.dest = f.tc.self)
    (hup : f.tc.block < (f.tc.processBlock cmd).1.block) :
    f.process cmd = ({ f with tc := ((f.tc.processBlock cmd).1.checkTimeGrant invalidFed).1
                              mode := ((f.tc.processBlock cmd).1.checkTimeGrant invalidFed).2.returnable },
      ((f.tc.processBlock cmd).1.checkTimeGrant invalidFed).2) := by
  have hp : f.tc.processTimeMessage cmd = f.tc.processBlock cmd := by
    unfold processTimeMessage
    rcases ha with h | h <;> rw [h]
  have h2 : (f.tc.processBlock cmd).2 = .processed := by
    have h3 : (f.tc.processBlock cmd).2 = if (f.tc.processBlock cmd).1.block > f.tc.block then .processed else .notProcessed := rfl
    rw [h3, if_pos hup]
  have hco : f.coordinator cmd = ({ f with tc := (f.tc.processBlock cmd).1 }, .reprocessMessage, { cmd with action := .timeCheck }) := by
    unfold coordinator
    rcases ha with h | h <;> simp [h, hp, h2, hm, hs]
  unfold process
  rw [processN, hco]
  simp only [stateChange, if_true, Bool.false_eq_true, if_false]
  rw [if_neg (show ¬ cmd.dest ≠ (f.tc.processBlock cmd).1.self from fun h => h hd)]
  exact process_timeCheck { f with tc := (f.tc.processBlock cmd).1 } { cmd with action := .timeCheck } hs hm rfl 2

/-- **C05** (release).  When a barrier command clears the last barrier in force below the end of time, a waiting
federate is at once treated as if there had never been a barrier: it gets the same answer, the same granted time
and sends the same messages. -/
theorem C05_release (limit : Int) (self : FedId) (ok ng gt : Bool) (pre : List FedOp) (cmd : Msg)
    (hid : self ≠ parentBroker) (hops : ∀ o ∈ pre, o.sane self) (f : Fed)
    (hfd : f = (Fed.initial self ok ng gt).run limit pre) (hs : f.state = .executing) (hm : f.mode = false)
    (hc : cmd.action = .timeBarrierClear ∨ cmd.action = .timeUnblock) (hd : cmd.dest = f.tc.self)
    (hcs : cmd.sane self)
    (hheld : ∃ i B, inForce pre i = some B ∧ B < cTerm)
    (hfree : ∀ i B, inForce (pre ++ [.msg cmd]) i = some B → cTerm ≤ B) :
    (f.process cmd).2 = ((unbarred f).tc.checkTimeGrant invalidFed).2 ∧
    (f.process cmd).1.tc.granted = ((unbarred f).tc.checkTimeGrant invalidFed).1.granted ∧
    (f.process cmd).1.tc.out = ((unbarred f).tc.checkTimeGrant invalidFed).1.out := by
  have h1 := C05_earliest limit self ok ng gt pre hid hops
  have hopsc : ∀ o ∈ pre ++ [FedOp.msg cmd], o.sane self := by
    intro o ho
    rcases List.mem_append.1 ho with h | h
    · exact hops o h
    · simp only [List.mem_singleton] at h; subst h; exact hcs
  have h2 := C05_earliest limit self ok ng gt (pre ++ [.msg cmd]) hid hopsc
  rw [← hfd] at h1
  have hrun : ((Fed.initial self ok ng gt).run limit (pre ++ [.msg cmd])) = (f.process cmd).1 := by
    unfold run; rw [List.foldl_append]; rw [hfd]; rfl
  rw [hrun] at h2
  obtain ⟨i, B, hB, hlt⟩ := hheld
  have hblk := h1.1 i B hB
  have hct : cTerm < maxVal := by decide
  have hnb : cTerm ≤ (f.process cmd).1.tc.block := by
    rcases h2.2 with e | ⟨j, e⟩
    · omega
    · exact hfree j _ e
  have hb2 := process_blocks f cmd
  have hba : f.tc.blocksAfter cmd = (f.tc.processBlock cmd).1.blocks := by
    unfold blocksAfter
    rw [if_pos (by rcases hc with h | h <;> rw [h] <;> rfl)]
  have hpb : (f.process cmd).1.tc.block = (f.tc.processBlock cmd).1.block := congrArg Prod.snd (hb2.trans hba)
  rw [hpb] at hnb
  rw [process_clear f cmd hs hm hc hd (by omega)]
  have hfr := checkTimeGrant_setB (f.tc.processBlock cmd).1 ([], maxVal) invalidFed hnb (by simp only; omega)
  have hsame : (f.tc.processBlock cmd).1.setB ([], maxVal) = (unbarred f).tc := rfl
  rw [hsame] at hfr
  rw [hfr]
  exact ⟨rfl, rfl, rfl⟩

/-- The hypotheses of `C05_release` are met by the held federate above. -/
example : ((Fed.initial 7 true false false).run 100 heldHistory).state = .executing ∧
    ((Fed.initial 7 true false false).run 100 heldHistory).mode = false ∧
    (∃ i B, inForce heldHistory i = some B ∧ B < cTerm) ∧
    (∀ i B, inForce (heldHistory ++ [barrierMsg .timeBarrierClear 1 0]) i = some B → cTerm ≤ B) := by
  refine ⟨by decide, by decide, ⟨1, 5, by decide, by decide⟩, ?_⟩
  intro i B h
  exfalso
  simp only [inForce, heldHistory, demoStart, fromEight, barrierMsg, List.cons_append, List.nil_append, List.foldl_cons,
    List.foldl_nil, next, reduceCtorEq, or_self, false_and, if_false, or_true, true_and] at h
  split at h
  · cases h
  · cases h

end Barrier
end Verif
