import Verif.Props.Departed
import Verif.Props.MinTime
/-!
# C43: when a pending time request is answered

The decision whether a pending request is answered, exactly: `E` is the time the federate would be granted next and `A`
the time its dependencies allow.  Before `A` it is answered, after `A` it waits, and at a tie it depends on the settings and on
what each dependency has said.  From this follows that a federate all of whose dependencies have moved past `E` never waits.
-/
namespace Verif
namespace Ready
open Fed TC Deps Grants Causal Departed

/-! ### Specification -/

/-- Another federate the coordinator waits for. -/
def Counts (d : DepInfo) : Prop := d.dependency = true ∧ d.connection ≠ .self

/-- A dependency does not stand in the way of a plain grant at `t`, a time its announcements just allow: it has finished, it has
announced a later time, or it is at `t` too, has itself asked for a time (rather than still running at `t`), and is not one that
only grants exactly what it asked for.  A federate that was to be woken early (`early`) also wants to know that the
dependency can be woken or was told to wait; one that waits for the current time accepts no tie. -/
def Settled (wait early : Bool) (t : Time) (d : DepInfo) : Prop :=
  cTerm ≤ d.next ∨ t < d.next ∨
  (wait = false ∧ d.next = t ∧ d.state ≠ .granted ∧ ¬ (d.state = .timeReq ∧ d.nonGranting = true) ∧
    (early = true → d.interrupted = true ∨ d.delayedTiming = true))

/-- The same for a federate that iterates. -/
def SettledIter (wait : Bool) (t : Time) (d : DepInfo) : Prop :=
  cTerm ≤ d.next ∨
  (t ≤ d.next ∧ (d.next = t → d.state ≠ .granted) ∧
    (wait = true → ¬ ((d.state = .timeReqIter ∨ d.state = .timeReqRequireIter) ∧ d.sequenceCounter < d.grantedIteration)))

theorem ready_iff (ds : Deps) (t : Time) (wait early : Bool) :
    ds.readyForTimeGrant false t (getDelayMode wait early) = true ↔ ∀ d ∈ ds, Counts d → Settled wait early t d := by
  unfold readyForTimeGrant
  simp only [Bool.false_eq_true, if_false, List.all_eq_true]
  apply forall_congr'; intro d
  apply forall_congr'; intro _
  unfold Counts Settled grantCheck getDelayMode
  cases wait <;> cases early <;> grind

theorem readyIter_iff (ds : Deps) (t : Time) (wait : Bool) :
    ds.readyForTimeGrant true t (getDelayMode wait false) = true ↔ ∀ d ∈ ds, Counts d → SettledIter wait t d := by
  unfold readyForTimeGrant
  simp only [if_true, List.all_eq_true]
  apply forall_congr'; intro d
  apply forall_congr'; intro _
  unfold Counts SettledIter iterGrantCheck getDelayMode
  cases wait <;> grind

/-! ### The decision -/

/-- the request cannot be answered at all for now: a barrier is in the way -/
def Barred (c : TC) : Prop := c.block ≤ c.nextExec ∧ c.block < cTerm

/-- nothing is left to do and nobody else can act: the federate is released at the end of time -/
def AtEnd (c : TC) : Prop := cTerm ≤ c.nextExec ∧ cTerm ≤ c.updateTimeFactors.allow

theorem check_halted (c : TC) (g : FedId) : (c.checkTimeGrant g).2 = .halted ↔ AtEnd c := by
  unfold AtEnd
  constructor
  · intro h
    rcases checkTimeGrant_outcome c g with ⟨_, h2, h3, _⟩ | ⟨h1, _⟩ | ⟨h1, _⟩ | ⟨h1, _⟩
    · exact ⟨h2, h3⟩
    · rw [h] at h1; cases h1
    · rw [h] at h1; cases h1
    · rw [h] at h1; cases h1
  · rintro ⟨h1, h2⟩
    unfold checkTimeGrant
    simp only
    rw [if_pos ⟨h1, h2⟩]

/-- **C43** (the decision).  A pending plain time request is answered exactly when no barrier is in the way, and `E` comes before
`A`, or `E = A` and either the federate asked for no more than `E` (and does not wait for the current time) or every
dependency is settled. -/
theorem C43_plain (c : TC) (g : FedId) (hi : c.iterating = .noIterations) (hn : c.nonGranting = false) :
    (c.checkTimeGrant g).2 = .nextStep ↔ ¬ AtEnd c ∧ ¬ Barred c ∧
      (c.nextExec < c.updateTimeFactors.allow ∨
       (c.nextExec = c.updateTimeFactors.allow ∧
        ((c.info.waitForCurrent = false ∧ c.requested ≤ c.nextExec) ∨
         ∀ d ∈ c.deps, Counts d → Settled c.info.waitForCurrent (decide (c.nextExec < c.requested)) c.nextExec d))) := by
  rw [← ready_iff]
  unfold checkTimeGrant AtEnd Barred
  simp only [show c.updateTimeFactors.exec = c.nextExec from rfl, show c.updateTimeFactors.block = c.block from rfl,
    show c.updateTimeFactors.nonGranting = c.nonGranting from rfl, hn]
  split
  · rename_i h; constructor
    · intro h'; cases h'
    · rintro ⟨h', _⟩; exact absurd h h'
  · rename_i h1
    split
    · rename_i h; constructor
      · intro h'; cases h'
      · rintro ⟨_, h', _⟩; exact absurd h h'
    · rename_i h2
      rw [if_neg (by simp)]
      rw [show c.updateTimeFactors.iterating = .noIterations from hi]
      dsimp only
      unfold grantNoIter
      simp only [show c.updateTimeFactors.exec = c.nextExec from rfl, show c.updateTimeFactors.deps = c.deps from rfl,
        show c.updateTimeFactors.info = c.info from rfl, show c.updateTimeFactors.requested = c.requested from rfl]
      have hf : ∀ (t : TC) (s : Bool), (t.finishGrant g s .continueProcessing).2 = .continueProcessing := fun t s => rfl
      split
      · rename_i h; exact ⟨fun _ => ⟨h1, h2, Or.inl h⟩, fun _ => rfl⟩
      · rename_i h3
        split
        · rename_i h4
          split
          · rename_i h5
            exact ⟨fun _ => ⟨h1, h2, Or.inr ⟨h4.symm, Or.inl (by simpa using h5)⟩⟩, fun _ => rfl⟩
          · rename_i h5
            split
            · rename_i h6; exact ⟨fun _ => ⟨h1, h2, Or.inr ⟨h4.symm, Or.inr h6⟩⟩, fun _ => rfl⟩
            · rename_i h6
              constructor
              · intro h; rw [hf] at h; cases h
              · rintro ⟨_, _, h | ⟨_, h | h⟩⟩
                · exact absurd h h3
                · exact absurd (by simpa using h) h5
                · exact absurd h h6
        · rename_i h4
          constructor
          · intro h; rw [hf] at h; cases h
          · rintro ⟨_, _, h | ⟨h, _⟩⟩
            · exact absurd h h3
            · exact absurd h.symm h4

/-! ### Nobody waits without a reason -/

theorem allow_gt (c : TC) (E : Time) (hE : E < maxVal) (h0 : 0 ≤ c.info.inputDelay)
    (hx : ∀ d ∈ c.deps, d.dependency = true → MinTime.Executing d ∧ E < c.info.inputDelay + d.next) : E < c.updateTimeFactors.allow := by
  have hm := MinTime.C13_true_minimum .total c.deps (c.info.restrictive || c.globalTime) invalidFed invalidFed c.seq
    (fun d hd hmem => (hx d hd hmem.1).1)
  obtain ⟨ms, h1, _, _, _, ⟨v, ⟨hv, _⟩, hle⟩, _⟩ := hm
  have hallow : c.updateTimeFactors.allow =
      if (minTimeTotal c.deps (c.info.restrictive || c.globalTime) invalidFed invalidFed c.seq).next <
        cTerm - c.info.outputDelay - max c.info.period c.info.timeDelta
      then c.info.inputDelay + (minTimeTotal c.deps (c.info.restrictive || c.globalTime) invalidFed invalidFed c.seq).next else maxVal := rfl
  rw [hallow]
  change v ≤ (minTimeTotal c.deps (c.info.restrictive || c.globalTime) invalidFed invalidFed c.seq).next at hle
  have hEv : E < c.info.inputDelay + v := by
    rcases List.mem_cons.mp hv with e | hv
    · omega
    · obtain ⟨d, hd, rfl⟩ := List.mem_map.mp hv
      exact (hx d ((h1 d).mp hd).1 ((h1 d).mp hd).2.1).2
  split <;> omega

/-- **C43** (no needless wait).  If every dependency has announced a time past `E` and there is no barrier at or before `E`, the
request is answered with `E`. -/
theorem C43_due (c : TC) (g : FedId) (hi : c.iterating = .noIterations) (hn : c.nonGranting = false) (h0 : 0 ≤ c.info.inputDelay)
    (hE : c.nextExec < cTerm) (hb : c.nextExec < c.block)
    (hx : ∀ d ∈ c.deps, d.dependency = true → MinTime.Executing d ∧ c.nextExec < c.info.inputDelay + d.next) :
    (c.checkTimeGrant g).2 = .nextStep ∧ (c.checkTimeGrant g).1.granted = c.nextExec := by
  have ha := allow_gt c c.nextExec (by have : cTerm < maxVal := by decide
                                       omega) h0 hx
  have h2 : (c.checkTimeGrant g).2 = .nextStep := (C43_plain c g hi hn).mpr
    ⟨fun h => by have := h.1; omega, fun h => by have := h.1; omega, Or.inl ha⟩
  refine ⟨h2, ?_⟩
  rcases checkTimeGrant_outcome c g with ⟨h1, _⟩ | ⟨h1, _⟩ | ⟨_, _, _, _, _, h4⟩ | ⟨h1, _⟩
  · rw [h2] at h1; cases h1
  · rw [h2] at h1; cases h1
  · exact congrArg Core.granted h4
  · rw [h2] at h1; cases h1

/-- the federate after a check that was triggered by `g` -/
def checked (f : Fed) (c : TC) (g : FedId) : Fed × MPR :=
  ({ f with tc := (c.checkTimeGrant g).1, mode := (c.checkTimeGrant g).2.returnable }, (c.checkTimeGrant g).2)

theorem isDep_find {ds : Deps} {g : FedId} (h : ds.isDependency g = true) : ∃ d, ds.find g = some d ∧ d.dependency = true := by
  unfold isDependency at h
  unfold Deps.find
  split at h
  · cases h
  · rename_i d l e
    split at h
    · rename_i e'; exact ⟨d, by simp only [if_pos e'], h⟩
    · cases h

theorem updateDeps_result (tc : TC) (cmd : Msg) (ha : cmd.action = .timeRequest ∨ cmd.action = .timeGrant)
    (hd : tc.deps.isDependency cmd.source = true) :
    (tc.processTimeMessage cmd).2 ≠ .notProcessed ∧ (tc.processTimeMessage cmd).2 ≠ .delayProcessing := by
  obtain ⟨d, h1, h2⟩ := isDep_find hd
  have h3 : (d.process cmd).2 = .processed ∨ (d.process cmd).2 = .processedNewRequest ∨ (d.process cmd).2 = .processedAndCheck := by
    unfold DepInfo.process
    rcases ha with e | e <;> rw [e] <;> simp only
    · repeat' split
      all_goals simp
    · simp
  have h4 : (tc.processTimeMessage cmd) = tc.updateDeps cmd := by
    unfold processTimeMessage
    rcases ha with e | e <;> rw [e]
  rw [h4]
  unfold updateDeps updateTime
  rw [h1]
  simp only [h2, Bool.not_true, Bool.false_eq_true, if_false]
  rcases h3 with e | e | e <;> rw [e] <;> simp

theorem finish_check (f : Fed) (cmd cmd' : Msg) (c : TC) (g : FedId) (n : Nat) (hs : f.state = .executing) (hm : f.mode = false)
    (hc : f.coordinator cmd = ({ f with tc := (c.checkTimeGrant g).1, mode := f.mode || (c.checkTimeGrant g).2.returnable },
      (c.checkTimeGrant g).2, cmd'))
    (h2 : ∀ v : Fed, v.state = .executing → v.tc.self = (c.checkTimeGrant g).1.self → secondSwitch v cmd' = some (v, .continueProcessing)) :
    processN (n + 1) f cmd = checked f c g := by
  have ho := checkTimeGrant_outcome c g
  have h4 : (c.checkTimeGrant g).2 = .halted ∨ (c.checkTimeGrant g).2 = .continueProcessing ∨
      (c.checkTimeGrant g).2 = .nextStep ∨ (c.checkTimeGrant g).2 = .iterating := by
    rcases ho with ⟨h, _, _, _⟩ | ⟨h, _⟩ | ⟨h, _, _, _, _, _⟩ | ⟨h, _, _, _, _, _⟩ <;> simp [h]
  unfold processN
  rw [hc]
  unfold stateChange checked
  simp only [hs, if_true, hm, Bool.false_or, Bool.false_eq_true, if_false]
  rcases h4 with h | h | h | h <;> rw [h] <;> simp only
  rw [h2 _ rfl rfl]

theorem process_word (f : Fed) (cmd : Msg) (ha : cmd.action = .timeRequest ∨ cmd.action = .timeGrant) (hs : f.state = .executing)
    (hm : f.mode = false) (hd : f.tc.deps.isDependency cmd.source = true) :
    ∃ trig, f.process cmd = checked f (f.tc.processTimeMessage cmd).1 trig := by
  obtain ⟨h1, h2⟩ := updateDeps_result f.tc cmd ha hd
  refine ⟨if cmd.action = .timeRequest then cmd.source else invalidFed, ?_⟩
  unfold process
  refine finish_check f cmd cmd _ _ 3 hs hm ?_ ?_
  · unfold coordinator
    generalize hp : f.tc.processTimeMessage cmd = r at h1 h2
    obtain ⟨tc', p⟩ := r
    rcases ha with e | e <;> simp only [e, hp]
    all_goals
      cases p <;> first
        | exact absurd rfl h1
        | exact absurd rfl h2
        | (simp only [hs, ne_eq, not_true_eq_false, if_false, tryGrant, hm, Bool.not_false, if_true])
  · intro v hv _
    unfold secondSwitch
    rcases ha with e | e <;> simp only [e]

/-- **C43** (a dependency moves on).  A federate is executing with a plain request pending.  A time request or grant of one
of its dependencies arrives, after which every dependency has announced a time past `E`, the time the federate waits for.
Then the request is answered by this very event, with `E`. -/
theorem C43_released (limit : Int) (f : Fed) (cmd : Msg) (hf : Reached limit f) (hs : f.state = .executing) (hm : f.mode = false)
    (hi : f.tc.iterating = .noIterations) (hn : f.tc.nonGranting = false)
    (ha : cmd.action = .timeRequest ∨ cmd.action = .timeGrant) (hd : f.tc.deps.isDependency cmd.source = true)
    (hE : f.tc.nextExec < cTerm) (hb : f.tc.nextExec < f.tc.block)
    (hx : ∀ d ∈ (f.tc.deps.updateTime cmd).1, d.dependency = true →
      MinTime.Executing d ∧ f.tc.nextExec < f.tc.info.inputDelay + d.next) :
    returned (f.step limit (.msg cmd)) = some f.tc.nextExec := by
  obtain ⟨trig, hp⟩ := process_word f cmd ha hs hm hd
  have hc := core_processTimeMessage f.tc cmd (by rcases ha with e | e <;> rw [e] <;> decide)
  have hdeps : (f.tc.processTimeMessage cmd).1.deps = (f.tc.deps.updateTime cmd).1 := by
    unfold processTimeMessage
    rcases ha with e | e <;> rw [e] <;> simp only [updateDeps] <;> (split <;> (try split) <;> rfl)
  have hblk : (f.tc.processTimeMessage cmd).1.block = f.tc.block := by
    unfold processTimeMessage
    rcases ha with e | e <;> rw [e] <;> simp only [updateDeps] <;> (split <;> (try split) <;> rfl)
  generalize (f.tc.processTimeMessage cmd).1 = c at hp hc hdeps hblk
  have hcore := hc.1
  have hex := nextExec_core hcore
  have hinfo : c.info = f.tc.info := congrArg Core.info hcore
  have hq := C43_due c trig ((congrArg Core.iterating hcore).trans hi) ((congrArg Core.nonGranting hcore).trans hn)
    (by rw [hinfo]; exact hf.inv.good.delta.2.1) (by rw [hex]; exact hE) (by rw [hex, hblk]; exact hb)
    (by rw [hdeps, hex, hinfo]; exact hx)
  simp only [step]
  rw [hp]
  unfold returned checked
  rw [hex] at hq
  simp only [hs, if_true, hq.1, hq.2]

/-- **C43** (own request).  A federate all of whose dependencies have announced times past the one it would be granted is answered at once. -/
theorem C43_at_once (limit : Int) (f : Fed) (t nv nm : Time) (hf : Reached limit f) (hs : f.state = .executing) (hm : f.mode = true)
    (hn : f.tc.nonGranting = false) :
    let E := (f.tc.prepRequest t .noIterations nv nm).nextExec
    E < cTerm → E < f.tc.block →
    (∀ d ∈ f.tc.deps, d.dependency = true → MinTime.Executing d ∧ E < f.tc.info.inputDelay + d.next) →
    returned (f.step limit (.timeRequest t .noIterations nv nm)) = some E := by
  intro E hE hb hx
  have hcore := timeRequest_core f.tc t .noIterations nv nm
  obtain ⟨f1, f2, f3, f4, f5, f6, f7, f8⟩ := timeRequest_fields f.tc t .noIterations nv nm
  have hex : (f.tc.timeRequest t .noIterations nv nm).nextExec = E := nextExec_core hcore.1
  have hblk : (f.tc.timeRequest t .noIterations nv nm).block = f.tc.block := congrArg Prod.snd hcore.2
  have hq := C43_due (f.tc.timeRequest t .noIterations nv nm) invalidFed f5 (f7.trans hn) (by rw [f3]; exact hf.inv.good.delta.2.1)
    (by rw [hex]; exact hE) (by rw [hex, hblk]; exact hb) (by
      rw [(timeRequest_rest f.tc t .noIterations nv nm).2.2, hex, f3]
      intro d hd hdep
      unfold resetEvents at hd
      obtain ⟨d0, h0, e⟩ := List.mem_map.mp hd
      split at e
      · rename_i h; subst e; exact hx d0 h0 h
      · rename_i h; subst e; exact absurd hdep h)
  simp only [step]
  rw [if_pos ⟨hs, hm⟩]
  unfold request
  rw [process_check { f with tc := f.tc.timeRequest t (f.limitIter limit .noIterations) nv nm, mode := false } _ rfl hs rfl]
  unfold returned
  have hlim : f.limitIter limit .noIterations = .noIterations := rfl
  rw [hlim]
  rw [hex] at hq
  simp only [hs, if_true, hq.1, hq.2]

/-! ### Iterating requests -/

/-- A federate that iterates and has nothing new may leave the current time although others are still there: all of them
wait for it (it is the one they named), have seen its latest request, and, under the restrictive policy, have taken part in
the extra round. -/
def MayLeave (c : TC) (seq : Int) : Prop :=
  c.info.waitForCurrent = false ∧ ∀ d ∈ c.deps, Counts d → d.next ≤ c.nextExec →
    d.minFed = c.self ∧ d.responseSequenceCounter = seq ∧ (c.info.restrictive = true → 1 ≤ d.restrictionLevel)

/-- one round of the loop of `checkTimeGrantRestriction` -/
def restrictionStep (self : FedId) (seq : Int) (exec : Time) (restricted : Bool) (acc : RestrictionCheck × Bool) (d : DepInfo) :
    RestrictionCheck × Bool :=
  if acc.2 then acc
  else if !d.dependency then acc
  else if d.next > exec ∨ d.connection = .self then acc
  else
    let a := if d.minFed ≠ self then { acc.1 with allowed := false } else acc.1
    if d.responseSequenceCounter = seq then
      (if restricted then { a with level := min a.level d.restrictionLevel } else a, false)
    else ({ a with advance := false, allowed := false }, true)

theorem restriction_fold (ds : Deps) (self : FedId) (seq : Int) (exec : Time) (restricted : Bool) : ∀ acc : RestrictionCheck × Bool,
    (acc.2 = true → acc.1.allowed = false) →
    let r := (ds.foldl (restrictionStep self seq exec restricted) acc).1
    (r.allowed = true ∧ (restricted = true → 1 ≤ r.level) ↔
      acc.1.allowed = true ∧ (restricted = true → 1 ≤ acc.1.level) ∧ ∀ d ∈ ds, Counts d → d.next ≤ exec →
        d.minFed = self ∧ d.responseSequenceCounter = seq ∧ (restricted = true → 1 ≤ d.restrictionLevel)) := by
  induction ds with
  | nil => intro acc _; simp
  | cons d ds ih =>
    intro acc hb
    simp only [List.foldl_cons]
    have hb' : (restrictionStep self seq exec restricted acc d).2 = true →
        (restrictionStep self seq exec restricted acc d).1.allowed = false := by
      unfold restrictionStep
      grind
    have := ih (restrictionStep self seq exec restricted acc d) hb'
    simp only at this
    rw [this]
    have key : ((restrictionStep self seq exec restricted acc d).1.allowed = true ∧
        (restricted = true → 1 ≤ (restrictionStep self seq exec restricted acc d).1.level)) ↔
        (acc.1.allowed = true ∧ (restricted = true → 1 ≤ acc.1.level) ∧ (Counts d → d.next ≤ exec →
        d.minFed = self ∧ d.responseSequenceCounter = seq ∧ (restricted = true → 1 ≤ d.restrictionLevel))) := by
      clear this hb' ih
      unfold restrictionStep Counts
      obtain ⟨⟨al, ad, lv⟩, st⟩ := acc
      cases st with
      | true => dsimp only at hb; rw [hb rfl]; simp
      | false =>
        by_cases h1 : d.dependency = true
        · by_cases h2 : d.next > exec ∨ d.connection = .self
          · simp only [h1, h2, if_true, Bool.not_true, Bool.false_eq_true, if_false]
            have : (True ∧ d.connection ≠ Conn.self → d.next ≤ exec →
                d.minFed = self ∧ d.responseSequenceCounter = seq ∧ (restricted = true → 1 ≤ d.restrictionLevel)) ↔ True := by
              refine ⟨fun _ => trivial, fun _ h3 h4 => ?_⟩
              rcases h2 with h2 | h2
              · omega
              · exact absurd h2 h3.2
            rw [this, and_true]
          · have h3 : d.next ≤ exec := by omega
            have h4 : d.connection ≠ .self := fun h => h2 (Or.inr h)
            have h3' : ¬ exec < d.next := by omega
            by_cases h5 : d.minFed = self <;> by_cases h6 : d.responseSequenceCounter = seq <;> cases restricted <;> cases al <;>
              simp [h1, h3, h3', h4, h5, h6] <;> omega
        · have : d.dependency = false := by simpa using h1
          simp [this]
    rw [← and_assoc, key]
    simp only [List.mem_cons, forall_eq_or_imp]
    grind

theorem restriction_iff (ds : Deps) (self : FedId) (seq : Int) (exec : Time) (wait restricted : Bool) :
    let r := checkGrantRestriction ds self seq exec wait restricted
    (r.allowed = true ∧ (restricted = true → 1 ≤ r.level)) ↔
      (wait = false ∧ ∀ d ∈ ds, Counts d → d.next ≤ exec →
        d.minFed = self ∧ d.responseSequenceCounter = seq ∧ (restricted = true → 1 ≤ d.restrictionLevel)) := by
  intro r
  have hr : r = checkGrantRestriction ds self seq exec wait restricted := rfl
  unfold checkGrantRestriction at hr
  cases wait with
  | true => rw [if_pos rfl] at hr; rw [hr]; simp
  | false =>
    rw [if_neg (by simp)] at hr
    have := restriction_fold ds self seq exec restricted (⟨true, restricted, 50⟩, false) (by simp)
    simp only at this
    have e : r = (ds.foldl (restrictionStep self seq exec restricted) (⟨true, restricted, 50⟩, false)).1 := hr
    rw [e, this]
    simp

theorem apply_iff (tc : TC) (c : RestrictionCheck) (restricted s : Bool) :
    (tc.applyRestriction c restricted s .nextStep).2.2 = (if c.allowed = true ∧ (restricted = true → 1 ≤ c.level) then .nextStep else .continueProcessing) ∧
    (tc.applyRestriction c restricted s .nextStep).1.iterating = tc.iterating := by
  unfold applyRestriction
  cases restricted <;> cases c.allowed <;> cases c.advance <;> simp <;> (repeat' split) <;> simp_all

/-- the possible answers when `E = A` -/
theorem iterDecision_iff (u : TC) (s : Bool) (he : u.allow = u.exec) :
    ((u.iterDecision s).2.2 = .nextStep ↔
      (u.exec = u.requested ∧ u.info.waitForCurrent = false) ∨
      (u.exec ≠ u.requested ∧ (∀ d ∈ u.deps, Counts d → SettledIter u.info.waitForCurrent u.exec d) ∧ u.hasIterationData = false ∧
        (u.granted < u.exec ∨ (u.info.waitForCurrent = false ∧ ∀ d ∈ u.deps, Counts d → d.next ≤ u.exec →
          d.minFed = u.self ∧ d.responseSequenceCounter = u.seq ∧ (u.info.restrictive = true → 1 ≤ d.restrictionLevel))))) ∧
    ((u.iterDecision s).2.2 = .iterating ↔ u.exec ≠ u.requested ∧
      (∀ d ∈ u.deps, Counts d → SettledIter u.info.waitForCurrent u.exec d) ∧ u.hasIterationData = true) ∧
    ((u.iterDecision s).2.2 = .nextStep ∨ (u.iterDecision s).2.2 = .iterating ∨ (u.iterDecision s).2.2 = .continueProcessing) ∧
    (u.iterDecision s).1.iterating = u.iterating := by
  have hres := restriction_iff u.deps u.self u.seq u.exec u.info.waitForCurrent u.info.restrictive
  dsimp only at hres
  rw [← readyIter_iff, ← hres]
  have ha := apply_iff u (checkGrantRestriction u.deps u.self u.seq u.exec u.info.waitForCurrent u.info.restrictive) u.info.restrictive s
  unfold iterDecision
  rw [he]
  dsimp only
  split
  · rename_i h1
    cases hw : u.info.waitForCurrent
    · simp [h1]
    · simp [h1]
  · rename_i h1
    split
    · rename_i h2
      cases hdat : u.hasIterationData
      · simp only [Bool.false_eq_true, if_false]
        split
        · rename_i h3; simp [h1, h2, h3]
        · rename_i h3
          rw [ha.1, ha.2]
          split
          · rename_i h4; simp [h1, h2, h3]; exact h4
          · rename_i h4; simp [h1, h2, h3]; simpa using h4
      · simp [h1, h2]
    · rename_i h2; simp [h1, h2]

/-- the answers of the iterating branch -/
theorem grantIter_iff (u : TC) (g : FedId) (s : Bool) (hi : u.iterating = .iterateIfNeeded) :
    ((u.grantIter g s).2 = .nextStep ↔
      ((u.exec < u.allow ∧ u.granted < u.exec ∧ u.hasIterationData = false) ∨
       (u.exec = u.allow ∧
        ((u.exec = u.requested ∧ u.info.waitForCurrent = false) ∨
         (u.exec ≠ u.requested ∧ (∀ d ∈ u.deps, Counts d → SettledIter u.info.waitForCurrent u.exec d) ∧
          u.hasIterationData = false ∧ (u.granted < u.exec ∨ (u.info.waitForCurrent = false ∧ ∀ d ∈ u.deps, Counts d → d.next ≤ u.exec →
            d.minFed = u.self ∧ d.responseSequenceCounter = u.seq ∧ (u.info.restrictive = true → 1 ≤ d.restrictionLevel))))))) ) ∧
    ((u.grantIter g s).2 = .iterating ↔
      ((u.exec < u.allow ∧ (u.exec ≤ u.granted ∨ u.hasIterationData = true)) ∨
       (u.exec = u.allow ∧ u.exec ≠ u.requested ∧
        (∀ d ∈ u.deps, Counts d → SettledIter u.info.waitForCurrent u.exec d) ∧ u.hasIterationData = true))) := by
  unfold grantIter
  split
  · rename_i h3
    split
    · rename_i h4
      simp only [reduceCtorEq, false_iff, true_iff]
      refine ⟨?_, Or.inl ⟨h3, h4⟩⟩
      rintro (⟨_, h, h'⟩ | ⟨h, _⟩)
      · rcases h4 with h4 | h4
        · omega
        · rw [h4] at h'; cases h'
      · omega
    · rename_i h4
      rw [if_neg (by rw [hi]; simp)]
      simp only [reduceCtorEq, false_iff, true_iff]
      refine ⟨Or.inl ⟨h3, by omega, ?_⟩, ?_⟩
      · cases hh : u.hasIterationData
        · rfl
        · exact absurd (Or.inr hh) h4
      · rintro (⟨_, h⟩ | ⟨h, _⟩)
        · exact h4 h
        · omega
  · rename_i h3
    split
    · rename_i h4
      obtain ⟨k1, k2, k3, k4⟩ := iterDecision_iff u s h4
      replace k4 := k4.trans hi
      dsimp only
      have hf : ((u.iterDecision s).1.finishGrant g (u.iterDecision s).2.1 (u.iterDecision s).2.2).2 = (u.iterDecision s).2.2 := by
        rcases k3 with e | e | e <;> rw [e] <;> unfold finishGrant <;> simp [k4]
      rw [hf, k1, k2]
      constructor
      · constructor
        · intro h
          exact Or.inr ⟨h4.symm, h⟩
        · rintro (⟨h, _⟩ | ⟨_, h⟩)
          · omega
          · exact h
      · constructor
        · intro h
          exact Or.inr ⟨h4.symm, h⟩
        · rintro (⟨h, _⟩ | ⟨_, h⟩)
          · omega
          · exact h
    · rename_i h4
      have hf : (u.finishGrant g s .continueProcessing).2 = .continueProcessing := rfl
      rw [hf]
      simp only [reduceCtorEq, false_iff]
      constructor
      · rintro (⟨h, _⟩ | ⟨h, _⟩)
        · omega
        · exact h4 h.symm
      · rintro (⟨h, _⟩ | ⟨h, _⟩)
        · omega
        · exact h4 h.symm

/-- **C43** (iterating requests).  A pending request of a federate that iterates if needed is answered, barriers aside,
- before `A`: with an iteration if new data came or `E` is the current time, with a step to `E` otherwise;
- at `A`: with a step if `E` is what it asked for (unless it waits for the current time); otherwise, once every dependency is
  settled, with an iteration if new data came, with a step if `E` is later than the current time or the federate may leave it;
- after `A`: not at all. -/
theorem C43_iterating (c : TC) (g : FedId) (hi : c.iterating = .iterateIfNeeded) (hn : c.nonGranting = false) :
    ((c.checkTimeGrant g).2 = .nextStep ↔ ¬ AtEnd c ∧ ¬ Barred c ∧
      ((c.nextExec < c.updateTimeFactors.allow ∧ c.granted < c.nextExec ∧ c.hasIterationData = false) ∨
       (c.nextExec = c.updateTimeFactors.allow ∧
        ((c.nextExec = c.requested ∧ c.info.waitForCurrent = false) ∨
         (c.nextExec ≠ c.requested ∧ (∀ d ∈ c.deps, Counts d → SettledIter c.info.waitForCurrent c.nextExec d) ∧
          c.hasIterationData = false ∧ (c.granted < c.nextExec ∨ MayLeave c c.seq)))))) ∧
    ((c.checkTimeGrant g).2 = .iterating ↔ ¬ AtEnd c ∧ ¬ Barred c ∧
      ((c.nextExec < c.updateTimeFactors.allow ∧ (c.nextExec ≤ c.granted ∨ c.hasIterationData = true)) ∨
       (c.nextExec = c.updateTimeFactors.allow ∧ c.nextExec ≠ c.requested ∧
        (∀ d ∈ c.deps, Counts d → SettledIter c.info.waitForCurrent c.nextExec d) ∧ c.hasIterationData = true))) := by
  have ha : AtEnd c ↔ (c.updateTimeFactors.exec ≥ cTerm ∧ c.updateTimeFactors.allow ≥ cTerm) := Iff.rfl
  have hb : Barred c ↔ (c.updateTimeFactors.block ≤ c.updateTimeFactors.exec ∧ c.updateTimeFactors.block < cTerm) := Iff.rfl
  by_cases h1 : AtEnd c
  · rw [(check_halted c g).mpr h1]
    exact ⟨⟨fun h => (by cases h), fun h => absurd h1 h.1⟩, ⟨fun h => (by cases h), fun h => absurd h1 h.1⟩⟩
  by_cases h2 : Barred c
  · have e : (c.checkTimeGrant g).2 = .continueProcessing := by
      unfold checkTimeGrant
      dsimp only
      rw [if_neg (mt ha.mpr h1), if_pos (hb.mp h2)]
    rw [e]
    exact ⟨⟨fun h => (by cases h), fun h => absurd h2 h.2.1⟩, ⟨fun h => (by cases h), fun h => absurd h2 h.2.1⟩⟩
  have e : c.checkTimeGrant g = { c.updateTimeFactors with needSendAll := false }.grantIter g c.updateTimeFactors.needSendAll := by
    unfold checkTimeGrant
    dsimp only
    rw [if_neg (mt ha.mpr h1), if_neg (mt hb.mpr h2), if_neg (fun h => by cases hn.symm.trans h.1), show c.updateTimeFactors.iterating = .iterateIfNeeded from hi]
  rw [e]
  have := grantIter_iff { c.updateTimeFactors with needSendAll := false } g c.updateTimeFactors.needSendAll hi
  exact ⟨this.1.trans ⟨fun h => ⟨h1, h2, h⟩, fun h => h.2.2⟩, this.2.trans ⟨fun h => ⟨h1, h2, h⟩, fun h => h.2.2⟩⟩

/-! ### Instances -/

/-- a federate with a plain request for 10 pending -/
def pending : Fed := demo.run 100 [.timeRequest 10 .noIterations maxVal maxVal]

theorem pending_reached : Reached 100 pending :=
  ⟨7, true, false, false, demoStart ++ [.timeRequest 10 .noIterations maxVal maxVal], by decide, by
    intro o ho
    simp only [demoStart, fromEight, List.cons_append, List.nil_append, List.mem_cons, List.not_mem_nil, or_false] at ho
    rcases ho with rfl | rfl | rfl | rfl | rfl | rfl <;> simp [FedOp.sane, Msg.sane, maxVal], by
    unfold pending demo; decide +kernel⟩

/-- the hypotheses of `C43_released` are met, and of the two sides of `C43_plain` both occur -/
example : Reached 100 pending ∧ pending.state = .executing ∧ pending.mode = false ∧ pending.tc.iterating = .noIterations ∧
    pending.tc.nonGranting = false ∧ pending.tc.deps.isDependency 8 = true ∧ pending.tc.nextExec = 10 ∧ 10 < pending.tc.block ∧
    (∀ d ∈ (pending.tc.deps.updateTime { action := .timeRequest, source := 8, dest := 7, actionTime := 20, Te := 20, Tdemin := 20 }).1,
      d.dependency = true → MinTime.Executing d ∧ pending.tc.nextExec < pending.tc.info.inputDelay + d.next) ∧
    returned (pending.step 100 (fromEight .timeRequest 20)) = some 10 ∧
    returned (pending.step 100 (fromEight .timeRequest 9)) = none := by
  refine ⟨pending_reached, by decide +kernel, by decide +kernel, by decide +kernel, by decide +kernel, by decide +kernel,
    by decide +kernel, by decide +kernel, ?_, by decide +kernel, by decide +kernel⟩
  unfold MinTime.Executing
  decide +kernel

end Ready
end Verif
