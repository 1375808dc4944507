import Verif.Lemmas.Iter
/-!
# C08: iterations are bounded

A federate that asks for `ITERATE_IF_NEEDED` repeats a time, or its entry into executing mode, only a bounded
number of times.  What the user sees of an event is the state of the federate after it and the result of the
pending call: `ITERATING` means "repeat", `NEXT_STEP` means "move on".
-/
namespace Verif
namespace Iterations
open Fed TC Grants

/-- What the user sees of each event of a history. -/
def answers (limit : Int) (f : Fed) : List FedOp → List (FedState × MPR)
  | [] => []
  | o :: os => let r := f.step limit o; (r.1.state, r.2) :: answers limit r.1 os

/-- Number of "repeat this time" answers in executing mode since the last answer that moved on; `n` were given
before. -/
def streak (n : Nat) : List (FedState × MPR) → Nat
  | [] => n
  | a :: as =>
    if a = (.executing, .iterating) then streak (n + 1) as
    else if a = (.executing, .nextStep) ∨ a = (.executing, .halted) then streak 0 as
    else streak n as

/-- Number of "repeat the entry" answers before executing mode. -/
def entryRepeats (as : List (FedState × MPR)) : Nat := as.count (.initializing, .iterating)

/-- the event is not a time request with forced iteration -/
def noForce (o : FedOp) : Prop := ∀ t nv nm, o ≠ .timeRequest t .forceIteration nv nm

/-- the event is not a request to enter executing mode with forced iteration -/
def noForceExec (o : FedOp) : Prop := o ≠ .execRequest .forceIteration

/-- the event does not make the federate join a running federation -/
def noJoin : FedOp → Prop
  | .msg cmd => ¬ joins cmd
  | _ => True

/-- invariant for time iterations: `n` repeats so far -/
structure TimeInv (limit : Int) (n : Nat) (f : Fed) : Prop where
  inv : Inv f
  bound : n ≤ limit.toNat
  early : f.state.rank < 2 → n = 0
  exec : f.state = .executing → n ≤ f.tc.iteration ∧ f.tc.iteration ≤ limit.toNat
  pend : f.state = .executing → f.mode = false →
    f.tc.iterating ≠ .forceIteration ∧ (f.tc.iterating = .iterateIfNeeded → f.tc.iteration < limit)

/-- the count after one more answer -/
def bump (n : Nat) (r : Fed × MPR) : Nat := streak n [(r.1.state, r.2)]

theorem streak_cons (n : Nat) (a : FedState × MPR) (as : List (FedState × MPR)) :
    streak n (a :: as) = streak (streak n [a]) as := by
  simp only [streak]
  repeat' split
  all_goals rfl

theorem bump_same {n : Nat} {r : Fed × MPR} (h : r.2 ≠ .iterating ∧ r.2 ≠ .nextStep ∧ r.2 ≠ .halted) : bump n r = n := by
  simp [bump, streak, h.1, h.2.1, h.2.2]

theorem bump_notExec {n : Nat} {r : Fed × MPR} (h : r.1.state ≠ .executing) : bump n r = n := by
  simp [bump, streak, h]

theorem bump_zero {n : Nat} {r : Fed × MPR} (h : r.1.state = .executing) (h2 : r.2 = .nextStep ∨ r.2 = .halted) : bump n r = 0 := by
  rcases h2 with h2 | h2 <;> simp [bump, streak, h, h2]

theorem bump_succ {n : Nat} {r : Fed × MPR} (h : r.1.state = .executing) (h2 : r.2 = .iterating) : bump n r = n + 1 := by
  simp [bump, streak, h, h2]

/-- an executing federate handles a command -/
theorem time_effect {limit : Int} {n : Nat} {f : Fed} {cmd : Msg} {r : Fed × MPR} (h : TimeInv limit n f)
    (hs : f.state = .executing) (e : Effect f cmd r) (hr : Inv r.1) : TimeInv limit (bump n r) r.1 := by
  obtain ⟨h1, h2⟩ := h.exec hs
  have hb := h.bound
  cases e with
  | quiet h1' hm hc _ hp =>
    have ei : r.1.tc.iteration = f.tc.iteration := congrArg Core.iteration hc
    have et : r.1.tc.iterating = f.tc.iterating := congrArg Core.iterating hc
    rw [bump_same (by rcases hp with h | h | h <;> rw [h] <;> simp)]
    exact ⟨hr, hb, fun h => by rw [h1'] at h; exact absurd h (by decide), fun _ => by rw [ei]; exact ⟨h1, h2⟩,
      fun _ hm' => by rw [ei, et]; exact h.pend hs (hm ▸ hm')⟩
  | attempt g trig hm hg _ hst ht hp hm' =>
    have ei : g.iteration = f.tc.iteration := congrArg Core.iteration hg
    have et : g.iterating = f.tc.iterating := congrArg Core.iterating hg
    obtain ⟨p1, p2⟩ := h.pend hs hm
    have hrank : ¬ r.1.state.rank < 2 := by rw [hst]; decide
    rcases checkTimeGrant_outcome g trig with ⟨q, _, _, hc⟩ | ⟨q, hc⟩ | ⟨q, _, _, _, _, hc⟩ | ⟨q, hq, _, _, _, hc⟩
    · have e1 : r.1.tc.iteration = g.iteration := by rw [ht]; exact congrArg Core.iteration hc
      rw [bump_zero hst (by rw [hp, q]; simp)]
      refine ⟨hr, by omega, fun _ => rfl, fun _ => by rw [e1, ei]; omega, fun _ hm2 => ?_⟩
      rw [hm', q] at hm2; cases hm2
    · have e1 : r.1.tc.iteration = g.iteration := by rw [ht]; exact congrArg Core.iteration hc
      have e2 : r.1.tc.iterating = g.iterating := by rw [ht]; exact congrArg Core.iterating hc
      rw [bump_same (by rw [hp, q]; simp)]
      exact ⟨hr, hb, fun h => absurd h hrank, fun _ => by rw [e1, ei]; exact ⟨h1, h2⟩,
        fun _ _ => by rw [e1, e2, ei, et]; exact ⟨p1, p2⟩⟩
    · have e1 : r.1.tc.iteration = 0 := by rw [ht]; exact congrArg Core.iteration hc
      rw [bump_zero hst (by rw [hp, q]; simp)]
      refine ⟨hr, by omega, fun _ => rfl, fun _ => by rw [e1]; omega, fun _ hm2 => ?_⟩
      rw [hm', q] at hm2; cases hm2
    · have hif : g.iterating = .iterateIfNeeded := by
        rcases hq with k | k
        · rw [et] at k; exact absurd k p1
        · exact k
      have hlt := p2 (by rw [← et]; exact hif)
      have e1 : r.1.tc.iteration = g.iteration + 1 := by
        rw [if_neg (by rw [hif]; simp)] at hc
        rw [ht]; exact congrArg Core.iteration hc
      rw [bump_succ hst (by rw [hp, q])]
      refine ⟨hr, by omega, fun h => absurd h hrank, fun _ => by rw [e1, ei]; omega, fun _ hm2 => ?_⟩
      rw [hm', q] at hm2; cases hm2
  | forced ha hst hm ht hc hgb _ hp =>
    have e1 : r.1.tc.iteration = f.tc.iteration := congrArg Core.iteration hc
    rw [bump_zero hst (Or.inl hp)]
    exact ⟨hr, by omega, fun _ => rfl, fun _ => by rw [e1]; omega, fun _ hm2 => by rw [hm] at hm2; cases hm2⟩
  | exit hl hc =>
    have hne : r.1.state ≠ .executing := by rcases hl with h | h | h <;> rw [h] <;> decide
    rw [bump_notExec hne]
    refine ⟨hr, hb, fun h => ?_, fun h => absurd h hne, fun h => absurd h hne⟩
    rcases hl with k | k | k <;> rw [k] at h <;> exact absurd h (by decide)

/-- a federate that is not executing handles a command -/
theorem time_other {limit : Int} {n : Nat} {f : Fed} {cmd : Msg} (h : TimeInv limit n f)
    (hs : f.state ≠ .executing) (hct : cmd.actionTime ≤ maxVal) (hr : StepOk f (f.process cmd)) :
    TimeInv limit (bump n (f.process cmd)) (f.process cmd).1 := by
  have hc := cnt_processN 4 f cmd hs hct h.inv.self
  have hb := h.bound
  have stay : (f.process cmd).1.state ≠ .executing → TimeInv limit (bump n (f.process cmd)) (f.process cmd).1 := by
    intro hne
    rw [bump_notExec hne]
    refine ⟨hr.inv, hb, fun hk => h.early (Nat.lt_of_le_of_lt hr.rank hk), fun k => absurd k hne, fun k => absurd k hne⟩
  cases hc with
  | quiet a => exact stay a
  | again _ _ a => exact stay (by show (processN 4 f cmd).1.state ≠ _; rw [a]; decide)
  | enter a b c d _ _ _ e =>
    have e : (f.process cmd).1.tc.iteration = 0 := e
    have d : (f.process cmd).1.mode = true := d
    rw [bump_zero (show (f.process cmd).1.state = .executing from c) (Or.inl a)]
    exact ⟨hr.inv, by omega, fun _ => rfl, fun _ => by rw [e]; omega, fun _ k => by rw [d] at k; cases k⟩

theorem time_process {limit : Int} {n : Nat} {f : Fed} {cmd : Msg} (h : TimeInv limit n f) (hct : cmd.actionTime ≤ maxVal)
    (ho : f.state = .executing → ¬ ownExec f cmd) : TimeInv limit (bump n (f.process cmd)) (f.process cmd).1 := by
  have hr := process_ok f cmd h.inv hct ho
  by_cases hs : f.state = .executing
  · exact time_effect h hs (process_effect f cmd hs (ho hs) h.inv.self) hr.inv
  · exact time_other h hs hct hr

/-- changes that touch neither the counter nor the kind of request -/
theorem TimeInv.same {limit : Int} {n : Nat} {f g : Fed} (h : TimeInv limit n f) (hi : Inv g) (hs : g.state = f.state)
    (hm : g.mode = f.mode) (h1 : g.tc.iteration = f.tc.iteration) (h2 : g.tc.iterating = f.tc.iterating) :
    TimeInv limit n g :=
  ⟨hi, h.bound, fun k => h.early (hs ▸ k), fun k => by rw [h1]; exact h.exec (hs ▸ k),
    fun k k' => by rw [h1, h2]; exact h.pend (hs ▸ k) (hm ▸ k')⟩

theorem DataOnly.iter {a b : TC} (h : DataOnly a b) : b.iteration = a.iteration ∧ b.iterating = a.iterating ∧
    b.info = a.info ∧ b.dynamicJoining = a.dynamicJoining := by
  obtain ⟨⟨_, _, _, _, h⟩, _⟩ := h
  exact ⟨congrArg Core.iteration h, congrArg Core.iterating h, congrArg Core.info h, congrArg Core.dynamicJoining h⟩

theorem time_step {limit : Int} {n : Nat} {f : Fed} {o : FedOp} (h : TimeInv limit n f) (ho : o.sane f.tc.self)
    (hf : noForce o) : TimeInv limit (bump n (f.step limit o)) (f.step limit o).1 := by
  have hr := step_ok limit f o h.inv ho
  cases o with
  | msg cmd => exact time_process h ho.1 (fun _ k => ho.2 ⟨Or.inl k.1, k.2.1, k.2.2⟩)
  | timeRequest t it nv nm =>
    simp only [step] at hr ⊢
    split
    · rename_i hx
      rw [if_pos hx] at hr
      obtain ⟨h1, h2, h3, h4, h5, h6, h7, h8⟩ := timeRequest_fields f.tc t (f.limitIter limit it) nv nm
      unfold request at hr ⊢
      have hg : TimeInv limit n { f with tc := f.tc.timeRequest t (f.limitIter limit it) nv nm, mode := false } := by
        obtain ⟨a, b⟩ := h.exec hx.1
        refine ⟨?_, h.bound, h.early, ?_, ?_⟩
        · have hnp := nextPossible_ge' f.tc h.inv.good
          refine ⟨⟨?_, ?_, ?_, ?_⟩, ?_, ?_⟩ <;> (try simp only)
          · rw [h1, h2]; exact h.inv.good.base
          · rw [h1]; exact h.inv.good.range
          · rw [h3]; exact h.inv.good.delta
          · rw [h3]; exact h.inv.good.offset
          · rw [h4]; exact h.inv.self
          · intro _ _
            rw [h1, h8]
            repeat' split
            all_goals omega
        · intro _; simp only; rw [h6]; exact ⟨a, b⟩
        · intro _ _
          simp only
          rw [h5, h6]
          unfold limitIter
          split
          · simp
          · rename_i hn
            refine ⟨fun e => hf t nv nm (by rw [e]), fun e => ?_⟩
            exact Int.not_le.mp (fun k => hn ⟨e, k⟩)
      exact time_process (cmd := { action := .timeCheck, source := f.tc.self, dest := f.tc.self, actionTime := t }) hg ho
        (fun _ k => nomatch k.1)
    · rw [bump_same (by simp)]; exact h
  | execRequest it =>
    simp only [step] at hr ⊢
    split
    · rename_i hx
      refine time_process h ?_ (fun k => by rw [hx.1] at k; cases k)
      cases it <;> (show (0 : Int) ≤ maxVal; decide)
    · rw [bump_same (by simp)]; exact h
  | value cmd =>
    have hd := DataOnly.iter (dataOnly_valueArrives f cmd ho.1)
    rw [bump_same (by simp [step])]
    exact h.same hr.inv rfl rfl hd.1 hd.2.1
  | message cmd =>
    have hd := DataOnly.iter (dataOnly_messageArrives f cmd ho.1)
    rw [bump_same (by simp [step])]
    exact h.same hr.inv rfl rfl hd.1 hd.2.1
  | setTime p v =>
    simp only [step] at hr ⊢
    split
    · rw [bump_same (by simp)]; exact h
    · rename_i hx
      rw [if_neg hx] at hr
      rw [bump_same (by simp)]
      exact h.same hr.inv rfl rfl rfl rfl
  | setFlag o v =>
    rw [bump_same (by simp [step])]
    exact h.same hr.inv rfl rfl (by cases o <;> rfl) (by cases o <;> rfl)
  | setMaxIterations v =>
    rw [bump_same (by simp [step])]
    exact h.same hr.inv rfl rfl rfl rfl

theorem time_run {limit : Int} {n : Nat} {f : Fed} {ops : List FedOp} (h : TimeInv limit n f)
    (ho : ∀ o ∈ ops, o.sane f.tc.self ∧ noForce o) : streak n (answers limit f ops) ≤ limit.toNat := by
  induction ops generalizing n f with
  | nil => exact h.bound
  | cons o os ih =>
    simp only [answers]
    rw [streak_cons]
    obtain ⟨h1, h2⟩ := ho o (by simp)
    have hr := (step_ok limit f o h.inv h1).self
    exact ih (time_step h h1 h2) (fun x hx => by rw [hr]; exact ho x (by simp [hx]))

/-- **C08** (time iterations are bounded).  Whatever the history, as long as no time request forces iteration,
the user is told to repeat one time at most as often as the core's iteration limit says. -/
theorem C08_time_bounded (limit : Int) (self : FedId) (ok ng gt : Bool) (ops : List FedOp)
    (hid : self ≠ parentBroker) (hops : ∀ o ∈ ops, o.sane self ∧ noForce o) :
    streak 0 (answers limit (Fed.initial self ok ng gt) ops) ≤ limit.toNat :=
  time_run ⟨initial_inv self ok ng gt hid, Nat.zero_le _, fun _ => rfl, (fun h => nomatch h), (fun h => nomatch h)⟩ hops


/-! ### Entry into executing mode -/

/-- The federate's iteration limit after a history: the value set last, or else `L`. -/
def limitSet (L : Int) : List FedOp → Int
  | [] => L
  | .setMaxIterations v :: os => limitSet v os
  | _ :: os => limitSet L os

/-- invariant for entry iterations: `m` repeats so far, `L` the limit set -/
structure EntryInv (L : Int) (m : Nat) (f : Fed) : Prop where
  inv : Inv f
  dyn : f.tc.dynamicJoining = false
  early : f.state = .created → m = 0 ∧ f.tc.iteration = 0
  init : f.state = .initializing → f.tc.iteration = m
  force : f.state.rank < 2 → f.tc.iterating ≠ .forceIteration
  lim : f.tc.info.maxIterations = L

/-- one event: the invariant goes on, and a repeat was within the limit -/
structure EntryStep (L L' : Int) (m : Nat) (r : Fed × MPR) : Prop where
  next : EntryInv L' (m + entryRepeats [(r.1.state, r.2)]) r.1
  within : (r.1.state, r.2) = (.initializing, .iterating) → (m : Int) + 1 ≤ L

theorem noRepeat {a : FedState × MPR} (h : a ≠ (.initializing, .iterating)) : entryRepeats [a] = 0 := by
  unfold entryRepeats
  rw [List.count_eq_zero]
  intro k
  exact h (List.mem_singleton.mp k).symm

theorem EntryStep.quiet {L L' : Int} {m : Nat} {r : Fed × MPR} (h : (r.1.state, r.2) ≠ (.initializing, .iterating))
    (hi : EntryInv L' m r.1) : EntryStep L L' m r :=
  ⟨by rw [noRepeat h]; exact hi, fun k => absurd k h⟩

theorem entry_other {L : Int} {m : Nat} {f : Fed} {cmd : Msg} (h : EntryInv L m f) (hs : f.state ≠ .executing)
    (hct : cmd.actionTime ≤ maxVal) (hr : StepOk f (f.process cmd)) (hj : ¬ joins cmd)
    (hm : f.state.rank < 2 → f.tc.modeAfter cmd ≠ .forceIteration) :
    EntryStep L L m (f.process cmd) := by
  have hc := cnt_processN 4 f cmd hs hct h.inv.self
  have hrk := hr.rank
  rw [if_neg (by decide)] at hc
  change Cnt _ _ f (f.process cmd).1 (f.process cmd).2 at hc
  have hrank : ∀ s : FedState, s ≠ .created → s.rank ≠ 0 := by intro s h; cases s <;> simp_all [FedState.rank]
  generalize f.process cmd = r at hr hc hrk
  obtain ⟨g, p⟩ := r
  simp only at hc hrk ⊢
  have key : g.state = .created → f.state = .created := by
    intro e
    rw [e] at hrk
    exact Decidable.not_not.mp (fun k => hrank _ k (Nat.le_zero.mp hrk))
  have key1 : g.state = .initializing → f.state = .created ∨ f.state = .initializing := by
    intro e
    rw [e] at hrk
    generalize f.state = s at hrk
    cases s <;> simp_all [FedState.rank]
  cases hc with
  | quiet a b c d e f' =>
    refine .quiet (fun k => f' (congrArg Prod.snd k) (congrArg Prod.fst k)) ?_
    refine ⟨hr.inv, (e hj).trans h.dyn, fun k => ?_, fun k => ?_, fun k => ?_, by simp only; rw [c]; exact h.lim⟩
    · simp only; rw [b]; exact h.early (key k)
    · simp only; rw [b]
      rcases key1 k with k' | k'
      · have := h.early k'; omega
      · exact h.init k'
    · simp only; rw [d]; exact hm (Nat.lt_of_le_of_lt hrk k)
  | again a b c d e f' i j k =>
    have h2 : f.state.rank < 2 := by rw [b]; decide
    have h3 : entryRepeats [(g.state, p)] = 1 := by rw [a, c]; rfl
    have h4 := h.init b
    have h5 := h.lim
    have h6 : f.tc.iteration < f.tc.info.maxIterations := by
      rcases k with k | k
      · exact absurd k (hm h2)
      · exact k.2
    have h7 := j hj h.dyn
    refine ⟨?_, fun _ => by omega⟩
    simp only
    rw [h3]
    exact ⟨hr.inv, (i hj).trans h.dyn, (fun k => by rw [c] at k; cases k), fun _ => by omega, fun _ => by rw [f']; exact hm h2,
      by rw [e]; exact h5⟩
  | enter a b c d e f' i j =>
    refine .quiet (by simp [a]) ?_
    refine ⟨hr.inv, (i hj).trans h.dyn, fun k => ?_, fun k => ?_, fun k => ?_, by simp only; rw [e]; exact h.lim⟩
    all_goals (simp only at k; rw [c] at k)
    · cases k
    · cases k
    · exact absurd k (by decide)

theorem modeAfter_own (f : Fed) (it : IterReq) (h1 : it ≠ .forceIteration) (h2 : f.tc.iterating ≠ .forceIteration) :
    f.tc.modeAfter (setIterationFlags { action := .execRequest, source := f.tc.self, dest := f.tc.self, indicator := true } it)
      ≠ .forceIteration := by
  unfold modeAfter setIterationFlags
  cases it <;> simp at h1 ⊢
  · rcases (cnt_enteringExecMode f.tc .noIterations).2 with h | h <;> rw [h]
    · decide
    · exact h2
  · rcases (cnt_enteringExecMode f.tc .iterateIfNeeded).2 with h | h <;> rw [h]
    · decide
    · exact h2
  · rcases (cnt_enteringExecMode f.tc .noIterations).2 with h | h <;> rw [h]
    · decide
    · exact h2
  · rcases (cnt_enteringExecMode f.tc .noIterations).2 with h | h <;> rw [h]
    · decide
    · exact h2

/-- anything that leaves the state and has nothing to do with the entry -/
theorem EntryInv.same {L L' : Int} {m : Nat} {f g : Fed} (h : EntryInv L m f) (hi : Inv g) (hs : g.state = f.state)
    (hd : g.tc.dynamicJoining = f.tc.dynamicJoining) (h1 : g.tc.iteration = f.tc.iteration)
    (h2 : g.tc.iterating = f.tc.iterating) (h3 : g.tc.info.maxIterations = L') :
    EntryInv L' m g :=
  ⟨hi, hd.trans h.dyn, fun k => by rw [h1]; exact h.early (hs ▸ k), fun k => by rw [h1]; exact h.init (hs ▸ k),
    fun k => by rw [h2]; exact h.force (hs ▸ k), h3⟩

/-- an executing federate has nothing more to count -/
theorem EntryInv.late {L : Int} {m : Nat} {f : Fed} {r : Fed × MPR} (h : EntryInv L m f) (hs : f.state = .executing)
    (hr : StepOk f r) (hd : r.1.tc.dynamicJoining = f.tc.dynamicJoining ∧ r.1.tc.info = f.tc.info) :
    EntryStep L L m r := by
  have hk := hr.rank
  rw [hs] at hk
  have h2 : ¬ r.1.state.rank < 2 := Nat.not_lt.mpr hk
  have h3 : r.1.state ≠ .created := fun e => by rw [e] at h2; exact h2 (by decide)
  have h4 : r.1.state ≠ .initializing := fun e => by rw [e] at h2; exact h2 (by decide)
  exact .quiet (fun k => h4 (congrArg Prod.fst k))
    ⟨hr.inv, hd.1.trans h.dyn, fun k => absurd k h3, fun k => absurd k h4, fun k => absurd k h2, by rw [hd.2]; exact h.lim⟩

theorem effect_dyn {f : Fed} {cmd : Msg} {r : Fed × MPR} (e : Effect f cmd r) :
    r.1.tc.dynamicJoining = f.tc.dynamicJoining ∧ r.1.tc.info = f.tc.info := by
  cases e with
  | quiet _ _ hc => exact ⟨congrArg Core.dynamicJoining hc, congrArg Core.info hc⟩
  | attempt g trig _ hg _ _ ht =>
    rw [ht, ← show g.dynamicJoining = f.tc.dynamicJoining from congrArg Core.dynamicJoining hg,
      ← show g.info = f.tc.info from congrArg Core.info hg]
    rcases checkTimeGrant_outcome g trig with ⟨_, _, _, h⟩ | ⟨_, h⟩ | ⟨_, _, _, _, _, h⟩ | ⟨_, _, _, _, _, h⟩
    · exact ⟨congrArg Core.dynamicJoining h, congrArg Core.info h⟩
    · exact ⟨congrArg Core.dynamicJoining h, congrArg Core.info h⟩
    · exact ⟨congrArg Core.dynamicJoining h, congrArg Core.info h⟩
    · split at h <;> exact ⟨congrArg Core.dynamicJoining h, congrArg Core.info h⟩
  | forced _ _ _ _ h => exact ⟨congrArg Core.dynamicJoining h, congrArg Core.info h⟩
  | exit _ h => rcases h with h | h <;> exact ⟨congrArg Core.dynamicJoining h, congrArg Core.info h⟩

theorem entry_process {L : Int} {m : Nat} {f : Fed} {cmd : Msg} (h : EntryInv L m f)
    (hct : cmd.actionTime ≤ maxVal) (ho : f.state = .executing → ¬ ownExec f cmd) (hj : ¬ joins cmd)
    (hm : f.state.rank < 2 → f.tc.modeAfter cmd ≠ .forceIteration) : EntryStep L L m (f.process cmd) := by
  have hr := process_ok f cmd h.inv hct ho
  by_cases hs : f.state = .executing
  · exact h.late hs hr (effect_dyn (process_effect f cmd hs (ho hs) h.inv.self))
  · exact entry_other h hs hct hr hj hm

theorem entry_step {limit L : Int} {m : Nat} {f : Fed} {o : FedOp} (h : EntryInv L m f) (ho : o.sane f.tc.self)
    (hf : noForceExec o) (hj : noJoin o) : EntryStep L (limitSet L [o]) m (f.step limit o) := by
  have hr := step_ok limit f o h.inv ho
  cases o with
  | msg cmd =>
    refine entry_process h ho.1 (fun _ k => ho.2 ⟨Or.inl k.1, k.2.1, k.2.2⟩) hj ?_
    intro hk
    have : f.tc.modeAfter cmd = f.tc.iterating := by
      unfold modeAfter
      exact if_neg (fun k => ho.2 ⟨Or.inl k.1, k.2⟩)
    rw [this]; exact h.force hk
  | timeRequest t it nv nm =>
    simp only [step, limitSet] at hr ⊢
    split
    · rename_i hx
      rw [if_pos hx] at hr
      refine h.late hx.1 hr ?_
      have hc := (timeRequest_core f.tc t (f.limitIter limit it) nv nm).1
      have hdt : (f.tc.timeRequest t (f.limitIter limit it) nv nm).dynamicJoining = f.tc.dynamicJoining :=
        congrArg Core.dynamicJoining hc
      have hdi : (f.tc.timeRequest t (f.limitIter limit it) nv nm).info = f.tc.info := congrArg Core.info hc
      have hself := (timeRequest_fields f.tc t (f.limitIter limit it) nv nm).2.2.2.1
      unfold request
      rw [← hdt, ← hdi]
      exact effect_dyn (f := { f with tc := f.tc.timeRequest t (f.limitIter limit it) nv nm, mode := false })
        (process_effect { f with tc := f.tc.timeRequest t (f.limitIter limit it) nv nm, mode := false }
        { action := .timeCheck, source := f.tc.self, dest := f.tc.self, actionTime := t } hx.1 (fun k => nomatch k.1)
        (by show (f.tc.timeRequest t (f.limitIter limit it) nv nm).self ≠ _; rw [hself]; exact h.inv.self))
    · exact .quiet (by simp) h
  | execRequest it =>
    simp only [step, limitSet] at hr ⊢
    split
    · rename_i hx
      refine entry_process h ?_ (fun k => by rw [hx.1] at k; cases k) ?_ ?_
      · cases it <;> (show (0 : Int) ≤ maxVal; decide)
      · cases it <;> simp [joins, setIterationFlags]
      · intro hk
        exact modeAfter_own f it (fun e => hf (by rw [e])) (h.force hk)
    · exact .quiet (by simp) h
  | value cmd =>
    have hd := DataOnly.iter (dataOnly_valueArrives f cmd ho.1)
    exact .quiet (by simp [step]) (h.same hr.inv rfl hd.2.2.2 hd.1 hd.2.1
      (by rw [show (f.step limit (.value cmd)).1.tc.info = f.tc.info from hd.2.2.1]; exact h.lim))
  | message cmd =>
    have hd := DataOnly.iter (dataOnly_messageArrives f cmd ho.1)
    exact .quiet (by simp [step]) (h.same hr.inv rfl hd.2.2.2 hd.1 hd.2.1
      (by rw [show (f.step limit (.message cmd)).1.tc.info = f.tc.info from hd.2.2.1]; exact h.lim))
  | setTime p v =>
    simp only [step, limitSet] at hr ⊢
    split
    · exact .quiet (by simp) h
    · rename_i hx
      rw [if_neg hx] at hr
      refine .quiet (by simp) (h.same hr.inv rfl rfl rfl rfl ?_)
      have := h.lim
      cases p <;> exact this
  | setFlag o v =>
    refine .quiet (by simp [step]) (h.same hr.inv rfl (by cases o <;> rfl) (by cases o <;> rfl) (by cases o <;> rfl) ?_)
    have := h.lim
    cases o <;> exact this
  | setMaxIterations v => exact .quiet (by simp [step]) (h.same hr.inv rfl rfl rfl rfl rfl)

theorem limitSet_cons (L : Int) (o : FedOp) (os : List FedOp) : limitSet L (o :: os) = limitSet (limitSet L [o]) os := by
  cases o <;> rfl

theorem entry_run {limit L : Int} {m : Nat} {f : Fed} {pre : List FedOp} {o : FedOp} (h : EntryInv L m f)
    (ho : ∀ x ∈ pre ++ [o], x.sane f.tc.self ∧ noForceExec x ∧ noJoin x)
    (hl : (answers limit f (pre ++ [o])).getLast? = some (.initializing, .iterating)) :
    ((m + entryRepeats (answers limit f (pre ++ [o])) : Nat) : Int) ≤ limitSet L pre := by
  have split1 : ∀ (a : FedState × MPR) as, entryRepeats (a :: as) = entryRepeats [a] + entryRepeats as := by
    intro a as
    unfold entryRepeats
    rw [List.count_cons, List.count_singleton]
    omega
  induction pre generalizing m f L with
  | nil =>
    obtain ⟨h1, h2, h3⟩ := ho o (by simp)
    have hs := entry_step (limit := limit) h h1 h2 h3
    simp only [List.nil_append, answers, List.getLast?_singleton, Option.some.injEq] at hl
    have := hs.within hl
    simp only [List.nil_append, answers, hl, limitSet]
    rw [show entryRepeats [(FedState.initializing, MPR.iterating)] = 1 from rfl]
    omega
  | cons x xs ih =>
    simp only [List.cons_append, answers]
    obtain ⟨h1, h2, h3⟩ := ho x (by simp)
    have hr := (step_ok limit f x h.inv h1).self
    have hs := entry_step (limit := limit) h h1 h2 h3
    have hne : answers limit (f.step limit x).1 (xs ++ [o]) ≠ [] := by
      cases xs <;> simp [answers]
    have := ih hs.next (fun y hy => by rw [hr]; exact ho y (List.mem_cons_of_mem _ hy)) (by
      simp only [List.cons_append, answers] at hl
      rw [List.getLast?_cons] at hl
      rw [List.getLast?_eq_some_getLast hne] at hl ⊢
      simpa using hl)
    rw [split1, limitSet_cons]
    omega

/-- **C08** (entry iterations are bounded).  Whatever the history of a federate that was there from the start, as
long as no request forces iteration: whenever it is told to repeat its entry, it has been told so at most as often
as the iteration limit then in force (the value set last, 50 if none) says. -/
theorem C08_entry_bounded (limit : Int) (self : FedId) (ok ng gt : Bool) (pre : List FedOp) (o : FedOp)
    (hid : self ≠ parentBroker) (hops : ∀ x ∈ pre ++ [o], x.sane self ∧ noForceExec x ∧ noJoin x)
    (hl : (answers limit (Fed.initial self ok ng gt) (pre ++ [o])).getLast? = some (.initializing, .iterating)) :
    (entryRepeats (answers limit (Fed.initial self ok ng gt) (pre ++ [o])) : Int) ≤ limitSet 50 pre := by
  have := entry_run (limit := limit) (m := 0) (f := Fed.initial self ok ng gt) (L := 50)
    ⟨initial_inv self ok ng gt hid, rfl, fun _ => ⟨rfl, rfl⟩, (fun h => nomatch h), (fun _ h => nomatch h), rfl⟩ hops hl
  simpa using this


/-! ### Witnesses and limits of the claim -/

/-- a value stamped `t` arrives -/
def valueAt (t : Time) : FedOp := .value { action := .pub, source := 8, dest := 7, actionTime := t }

/-- federate 7 with iteration limit 1 initialises -/
def enterInit : List FedOp := [.setMaxIterations 1, .msg { action := .initGrant, dest := 7 }]

/-- three iterative requests, a value having arrived at the granted time before each -/
def threeRequests (it : IterReq) : List FedOp :=
  [valueAt 0, .timeRequest 10 it 0 maxVal, valueAt 0, .timeRequest 10 it 0 maxVal, valueAt 0, .timeRequest 10 it 0 maxVal]

/-- three iterative requests to enter executing mode, an initial value having arrived before each -/
def threeEntries : List FedOp :=
  [valueAt (-1), .execRequest .iterateIfNeeded, valueAt (-1), .execRequest .iterateIfNeeded, valueAt (-1), .execRequest .iterateIfNeeded]

-- the hypotheses of `C08_time_bounded` are met by a history whose third request is refused its repeat
example : ∀ o ∈ enterInit ++ .execRequest .noIterations :: threeRequests .iterateIfNeeded, o.sane 7 ∧ noForce o := by
  simp [enterInit, threeRequests, valueAt, FedOp.sane, Msg.sane, noForce, maxVal]

example : (answers 2 (Fed.initial 7 true false false)
    (enterInit ++ .execRequest .noIterations :: threeRequests .iterateIfNeeded)).filter (·.2.returnable) =
    [(.initializing, .nextStep), (.executing, .nextStep), (.executing, .iterating), (.executing, .iterating), (.executing, .nextStep)] := by
  decide

-- the hypotheses of `C08_entry_bounded` are met: one repeat, then entry
example : (∀ o ∈ (enterInit ++ [valueAt (-1)]) ++ [.execRequest .iterateIfNeeded], o.sane 7 ∧ noForceExec o ∧ noJoin o) ∧
    (answers 2 (Fed.initial 7 true false false) ((enterInit ++ [valueAt (-1)]) ++ [.execRequest .iterateIfNeeded])).getLast? =
      some (.initializing, .iterating) ∧
    (answers 2 (Fed.initial 7 true false false) (enterInit ++ threeEntries.take 4)).filter (·.2.returnable) =
      [(.initializing, .nextStep), (.initializing, .iterating), (.executing, .nextStep)] := by
  refine ⟨?_, by decide, by decide⟩
  simp [enterInit, valueAt, FedOp.sane, Msg.sane, noForceExec, noJoin, joins, maxVal]

/-- Forced iteration is not limited: with the core's limit at 2, three forced requests are told to repeat three
times (src/helics/core/CommonCore.cpp:1022-1027 tests only `ITERATE_IF_NEEDED`). -/
theorem C08_forced_unbounded : ∃ ops : List FedOp, (∀ o ∈ ops, o.sane 7) ∧
    streak 0 (answers 2 (Fed.initial 7 true false false) ops) = 3 :=
  ⟨enterInit ++ .execRequest .noIterations :: threeRequests .forceIteration,
    by simp [enterInit, threeRequests, valueAt, FedOp.sane, Msg.sane, maxVal], by decide⟩

/-- The federate's own limit does not limit time iterations, only the core's does: with `MAX_ITERATIONS` set to 1
a federate is told to repeat one time three times. -/
theorem C08_federate_limit_ignored : ∃ ops : List FedOp, (∀ o ∈ ops, o.sane 7 ∧ noForce o) ∧ limitSet 50 ops = 1 ∧
    streak 0 (answers 100 (Fed.initial 7 true false false) ops) = 3 :=
  ⟨enterInit ++ .execRequest .noIterations :: threeRequests .iterateIfNeeded,
    by simp [enterInit, threeRequests, valueAt, FedOp.sane, Msg.sane, noForce, maxVal], by decide, by decide⟩

/-- A federate joining a running federation is not limited: with the limit set to 1 it is told to repeat its entry
three times, after a single initial value (src/helics/core/TimeCoordinator.cpp:1169-1211 counts nothing and keeps
the update flag when joining dynamically). -/
theorem C08_joining_unbounded : ∃ ops : List FedOp, (∀ o ∈ ops, o.sane 7 ∧ noForceExec o) ∧ limitSet 50 ops = 1 ∧
    entryRepeats (answers 100 (Fed.initial 7 true false false) ops) = 3 :=
  ⟨[.setMaxIterations 1, .msg { action := .initGrant, dest := 7, dynamicJoin := true }, valueAt (-1),
      .execRequest .iterateIfNeeded, .execRequest .iterateIfNeeded, .execRequest .iterateIfNeeded],
    by simp [valueAt, FedOp.sane, Msg.sane, noForceExec, maxVal], by decide, by decide⟩

end Iterations
end Verif
