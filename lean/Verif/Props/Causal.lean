import Verif.Lemmas.AllDeps
import Verif.Props.Grants
/-!
# C04: a grant never passes what a dependency has announced

A dependency `g` speaks through its timing commands (`word`).  From the moment a command of `g` has been
received until `g` speaks again, no time granted to the federate exceeds the announced times, whatever else
happens: other federates' commands in any order, data, barriers, own requests, changed settings.
-/
namespace Verif
namespace Causal
open Fed TC Deps Grants

/-- What a command tells about the federate that sent it. -/
inductive Word
  /-- nothing about time -/
  | silent
  /-- it has not entered executing mode -/
  | notStarted
  /-- its next step is not before `next`; without new input it acts (is granted) not before `event` -/
  | at (next event : Time)
  deriving DecidableEq

/-- The meaning of the timing commands. -/
def word (cmd : Msg) : Word :=
  match cmd.action with
  | .execRequest => .notStarted
  | .execGrant => if cmd.iterationRequested then .notStarted else .at 0 0
  | .timeRequest => .at cmd.actionTime cmd.Te
  | .timeGrant => .at cmd.actionTime cmd.actionTime
  | .disconnect | .priorityDisconnect | .broadcastDisconnect | .disconnectCore | .disconnectBroker | .disconnectFed
  | .localError | .globalError => .at maxVal maxVal
  | _ => .silent

/-- A query for the current time carries no counter, as the code sends it
(src/helics/core/TimeCoordinator.cpp:429-445). -/
def plainQuery (cmd : Msg) : Prop := cmd.action = .requestCurrentTime → cmd.counter = 0

/-- The event is not a word of `g`, does not change whether `g` is a dependency and is not a forced grant. -/
def leaves (g : FedId) : FedOp → Prop
  | .msg cmd => (cmd.source = g → word cmd = .silent ∧ plainQuery cmd) ∧ rewires g cmd = false ∧ cmd.action ≠ .forceTimeGrant
  | _ => True

theorem process_silent (cmd : Msg) (d : DepInfo) (h : word cmd = .silent) :
    executing (d.process cmd).1 = executing d ∧ (d.process cmd).1.next = d.next ∧ (d.process cmd).1.Te = d.Te := by
  unfold word at h
  unfold DepInfo.process executing
  split <;> rename_i ha <;> simp only [ha] at h <;> first | (exact ⟨rfl, rfl, rfl⟩) | (split at h <;> cases h) | cases h

theorem process_at' (cmd : Msg) (d : DepInfo) (n e : Time) (h : word cmd = .at n e) :
    executing (d.process cmd).1 = true ∧ (d.process cmd).1.next = n ∧ (d.process cmd).1.Te ≤ e := by
  unfold word at h
  unfold DepInfo.process executing
  split <;> rename_i ha <;> simp only [ha] at h
  all_goals (first | (cases h; done) | skip)
  · cases hi : cmd.iterationRequested <;> simp only [hi, Bool.false_eq_true, if_false, if_true] at h
    · injection h with h1 h2; subst h1 h2; simp
    · cases h
  · injection h with h1 h2
    subst h1 h2
    refine ⟨?_, rfl, Int.le_refl _⟩
    cases cmd.iterationRequested <;> cases cmd.required <;> simp [TimeState.rank]
  all_goals (injection h with h1 h2; subst h1 h2; simp [TimeState.rank])

theorem process_at (cmd : Msg) (d : DepInfo) (n e : Time) (h : word cmd = .at n e) (hc : d.connection ≠ .self) :
    Says n e (d.process cmd).1 :=
  let hx := process_at' cmd d n e h
  ⟨⟨hx.1, by rw [process_conn]; exact hc⟩, hx.2⟩

theorem process_notStarted (cmd : Msg) (d : DepInfo) (h : word cmd = .notStarted) : NotStarted (d.process cmd).1 := by
  unfold word at h
  unfold DepInfo.process NotStarted executing
  split <;> rename_i ha <;> simp only [ha] at h
  all_goals (first | (cases h; done) | skip)
  · cases cmd.iterationRequested <;> cases cmd.required <;> simp [TimeState.rank]
  · cases hi : cmd.iterationRequested <;> simp only [hi, Bool.false_eq_true, if_false, if_true] at h
    · cases h
    · simp [TimeState.rank]

theorem _root_.Verif.Grants.Reached.ownMark {limit : Int} {f : Fed} (h : Reached limit f) : Each (OwnMark f.tc.self) f.tc.deps := by
  obtain ⟨s, a, b, c, pre, hs, hp, rfl⟩ := h
  have hi := initial_inv s a b c hs
  rw [(run_ok limit _ pre hi hp).2.2]
  exact each_run hi pre (ok := fun _ => True) (fun o h => ⟨hp o h, by cases o <;> trivial⟩) (kept_ownMark _)
    (fun _ _ _ => trivial) (fun _ h => nomatch h)

/-- facts about the entry of `g` that hold whatever other events do -/
structure Lasting (g : FedId) (P : DepInfo → Prop) : Prop where
  robust : Robust P
  silent : ∀ cmd d, word cmd = .silent → plainQuery cmd → P d → P (d.process cmd).1

theorem lasting_says (g : FedId) {n x : Time} (h : n ≤ x) : Lasting g (Says n x) where
  robust := robust_says h
  silent cmd d hw _ hd := by
    obtain ⟨a, b, c⟩ := process_silent cmd d hw
    exact ⟨⟨a.trans hd.1.1, by rw [process_conn]; exact hd.1.2⟩, b.trans hd.2.1, by rw [c]; exact hd.2.2⟩

theorem lasting_notStarted (g : FedId) : Lasting g NotStarted where
  robust := robust_notStarted
  silent cmd d hw _ hd := (process_silent cmd d hw).1.trans hd

/-- an event without a word of `g` keeps the facts; own requests only move the expected event time -/
theorem has_step {limit : Int} {f : Fed} {g : FedId} {P Q : DepInfo → Prop} (hi : Inv f) (o : FedOp)
    (ho : o.sane f.tc.self) (hl : leaves g o) (hg : g ≠ f.tc.self) (hP : Lasting g P) (hQ : Lasting g Q)
    (hpq : ∀ d, P d → Q d) (hreq : ∀ d, P d → Q { d with Te := max d.next f.tc.granted, minDe := max d.next f.tc.granted })
    (h : Has g P f.tc.deps) :
    Has g (if f.state = .executing then Q else P) (f.step limit o).1.tc.deps := by
  have weak : ∀ ds, Has g P ds → Has g (if f.state = .executing then Q else P) ds := by
    intro ds h; split
    · exact h.mono hpq
    · exact h
  cases o with
  | msg cmd =>
    apply weak
    have hd := dr_process f cmd ho.1 hi.self
    have hs : cmd.source = g → ∀ d, P d → P (d.process cmd).1 := fun e d hd => hP.silent cmd d (hl.1 e).1 (hl.1 e).2 hd
    exact (has_tableAfter hP.robust h cmd hl.2.1 hs).dr hP.robust hd hg hs
  | timeRequest t it nv nm =>
    simp only [step]
    by_cases hc : f.state = .executing ∧ f.mode = true
    · rw [if_pos hc.1, if_pos hc]
      unfold request
      have hsf := timeRequest_fields f.tc t (f.limitIter limit it) nv nm
      have hself : (f.tc.timeRequest t (f.limitIter limit it) nv nm).self = f.tc.self := hsf.2.2.2.1
      have hd := dr_process { f with tc := f.tc.timeRequest t (f.limitIter limit it) nv nm, mode := false }
        { action := .timeCheck, source := f.tc.self, dest := f.tc.self, actionTime := t } ho
        (by show TC.self _ ≠ _; rw [hself]; exact hi.self)
      have h0 : Has g Q (f.tc.timeRequest t (f.limitIter limit it) nv nm).deps := by
        rw [deps_timeRequest]
        refine h.map _ (fun d hd hdep => ?_)
        rw [if_pos hdep]
        exact ⟨rfl, rfl, hreq d hd⟩
      rw [tableAfter_check _ _ (Or.inr rfl)] at hd
      exact h0.dr hQ.robust hd (by show g ≠ TC.self _; rw [hself]; exact hg)
        (fun e => absurd (e.symm) hg)
    · rw [if_neg hc]; exact weak _ h
  | execRequest it =>
    apply weak
    simp only [step]
    split
    · unfold requestExec
      have hsrc : (setIterationFlags { action := .execRequest, source := f.tc.self, dest := f.tc.self, indicator := true } it).source = f.tc.self := by
        cases it <;> rfl
      have hact : (setIterationFlags { action := .execRequest, source := f.tc.self, dest := f.tc.self, indicator := true } it).actionTime = 0 := by
        cases it <;> rfl
      generalize setIterationFlags { action := .execRequest, source := f.tc.self, dest := f.tc.self, indicator := true } it = cmd at hsrc hact
      have hd := dr_process f cmd (by rw [hact]; decide) hi.self
      have hs : cmd.source = g → ∀ d, P d → P (d.process cmd).1 := fun e => absurd (e.symm.trans hsrc) hg
      exact (has_tableAfter hP.robust h cmd (by
        unfold rewires; rw [hsrc]; simp [Ne.symm hg]) hs).dr hP.robust hd hg hs
    · exact h
  | value cmd =>
    apply weak
    simp only [step]
    unfold valueArrives
    simp only
    have h1 := h
    rw [← deps_updateValueTime f.tc cmd.actionTime (!f.mode)] at h1
    split
    · rw [deps_processTimeMessage _ _ (by rw [ho.1]; decide)]
      exact h1.tableMsg hP.robust cmd (fun _ d hd => hP.silent cmd d (by unfold word; rw [ho.1]) (by unfold plainQuery; rw [ho.1]; exact (nomatch ·)) hd)
    · exact h1
  | message cmd =>
    apply weak
    simp only [step]
    unfold messageArrives
    simp only
    have h1 := h
    rw [← deps_updateMessageTime f.tc cmd.actionTime (!f.mode)] at h1
    split
    · rw [deps_processTimeMessage _ _ (by rw [ho.1]; decide)]
      exact h1.tableMsg hP.robust cmd (fun _ d hd => hP.silent cmd d (by unfold word; rw [ho.1]) (by unfold plainQuery; rw [ho.1]; exact (nomatch ·)) hd)
    · exact h1
  | setTime p v =>
    apply weak
    simp only [step]
    split <;> exact h
  | setFlag p v => exact weak _ h
  | setMaxIterations v => exact weak _ h

/-- Why a coordinator state may answer with `T`: the time allowed by the table is not before it; and for a request
without iteration, a time exactly at the limit also passes the table's readiness check, unless it is the
requested time and the federate does not wait for the current time. -/
structure Permits (c : TC) (T : Time) : Prop where
  limit : (T = maxVal ∧ cTerm ≤ c.updateTimeFactors.allow) ∨ T ≤ c.updateTimeFactors.allow
  plain : c.iterating = .noIterations → T = maxVal ∨ T < c.updateTimeFactors.allow ∨
    (c.info.waitForCurrent = false ∧ c.requested ≤ T) ∨
    c.deps.readyForTimeGrant false T (getDelayMode c.info.waitForCurrent (decide (c.requested > T))) = true

theorem grantNoIter_ready (u : TC) (g : FedId) (s : Bool) (h : (u.grantNoIter g s).2 = .nextStep) :
    u.exec < u.allow ∨ (u.info.waitForCurrent = false ∧ u.requested ≤ u.exec) ∨
    u.deps.readyForTimeGrant false u.exec (getDelayMode u.info.waitForCurrent (decide (u.requested > u.exec))) = true := by
  unfold grantNoIter at h
  split at h
  · left; omega
  · split at h
    · split at h
      · rename_i hc; right; left; simpa using hc
      · split at h
        · rename_i hr; exact Or.inr (Or.inr hr)
        · unfold finishGrant at h; cases h
    · unfold finishGrant at h; cases h

theorem nextStep_ready (c : TC) (g : FedId) (hi : c.iterating = .noIterations) (h : (c.checkTimeGrant g).2 = .nextStep) :
    c.nextExec < c.updateTimeFactors.allow ∨ (c.info.waitForCurrent = false ∧ c.requested ≤ c.nextExec) ∨
    c.deps.readyForTimeGrant false c.nextExec (getDelayMode c.info.waitForCurrent (decide (c.requested > c.nextExec))) = true := by
  unfold checkTimeGrant at h
  simp only at h
  split at h
  · cases h
  · split at h
    · cases h
    · split at h
      · cases h
      · rw [show c.updateTimeFactors.iterating = .noIterations from hi] at h
        dsimp only at h
        have h2 := grantNoIter_ready _ g _ h
        exact h2

theorem checkTimeGrant_permits {c : TC} {trig : FedId} (hgood : GoodTime c) (hpend : c.granted ≤ c.requested) {T : Time}
    (hT : (match (c.checkTimeGrant trig).2 with
      | .nextStep | .iterating => some (c.checkTimeGrant trig).1.granted
      | .halted => some maxVal
      | _ => none) = some T) : Permits c T := by
  have hready := nextStep_ready c trig
  rcases checkTimeGrant_outcome c trig with ⟨h1, h2, h3, _⟩ | ⟨h1, _⟩ | ⟨h1, _, _, _, h3, h4⟩ | ⟨h1, hit, _, _, h3, h4⟩
  · rw [h1] at hT
    injection hT with e
    exact ⟨Or.inl ⟨e.symm, h3⟩, fun _ => Or.inl e.symm⟩
  · rw [h1] at hT; cases hT
  · rw [h1] at hT
    injection hT with e
    have e' : c.nextExec = T := by
      rw [← e, show (c.checkTimeGrant trig).1.granted = c.nextExec from congrArg Core.granted h4]
    subst e'
    exact ⟨Or.inr h3, fun hi => Or.inr (hready hi h1)⟩
  · rw [h1] at hT
    injection hT with e
    refine ⟨Or.inr ?_, fun hi => ?_⟩
    · split at h4
      · rw [← e, show (c.checkTimeGrant trig).1.granted = c.granted from congrArg Core.granted h4]
        have := nextExec_ge c hgood hpend
        omega
      · rw [← e, show (c.checkTimeGrant trig).1.granted = c.nextExec from congrArg Core.granted h4]
        exact h3
    · rw [hi] at hit; rcases hit with h | h <;> cases h

/-- a time handed out while executing was permitted by a coordinator state reached while the event was processed -/
theorem granted_permitted {f : Fed} {cmd : Msg} {r : Fed × MPR} (he : Effect f cmd r)
    (hi : Inv f) (hs : f.state = .executing) (hf : cmd.action ≠ .forceTimeGrant)
    (T : Time) (hT : returned r = some T) :
    ∃ c : TC, c.core = f.tc.core ∧ DR f.tc.self cmd (f.tc.tableAfter cmd) c.deps ∧ Permits c T := by
  cases he with
  | quiet _ _ _ _ hp _ =>
    exfalso
    have := returned_none (r := r) (by rcases hp with e | e | e <;> rw [e] <;> decide)
      (by rcases hp with e | e | e <;> rw [e] <;> decide) (by rcases hp with e | e | e <;> rw [e] <;> decide)
    rw [this] at hT; cases hT
  | forced ha => exact absurd ha hf
  | exit hx _ =>
    exfalso
    unfold returned at hT
    split at hT
    · rename_i e; rw [e] at hx; rcases hx with h | h | h <;> cases h
    · cases hT
  | attempt c trig hm hc _ hse ht hp _ hd =>
    refine ⟨c, hc, hd, ?_⟩
    unfold returned at hT
    rw [if_pos hse, hp, ht] at hT
    refine checkTimeGrant_permits (GoodTime.congr hc hi.good) ?_ hT
    rw [show c.granted = f.tc.granted from congrArg Core.granted hc,
      show c.requested = f.tc.requested from congrArg Core.requested hc]
    exact hi.pend hs hm

/-- the event answers, or makes, a request without iteration -/
def plainRequest (u : Fed) : FedOp → Prop
  | .timeRequest _ it _ _ => it = .noIterations
  | _ => u.tc.iterating = .noIterations

/-- the same for any event without a word of `g`: the facts about `g` (weakened by an own request) and about all
entries hold in the permitting state -/
theorem step_permitted {limit : Int} {f : Fed} {g : FedId} {P Q R : DepInfo → Prop} {ok : Msg → Prop} (hi : Inv f)
    (hs : f.state = .executing) (o : FedOp)
    (ho : o.sane f.tc.self) (hk : opOk ok o) (K : Kept f.tc.self ok R)
    (hown : ∀ m : Msg, m.source = f.tc.self → m.action = .timeCheck ∨ m.action = .execRequest → ok m)
    (hl : leaves g o) (hg : g ≠ f.tc.self) (hP : Lasting g P) (hQ : Lasting g Q)
    (hpq : ∀ d, P d → Q d) (hreq : ∀ d, P d → Q { d with Te := max d.next f.tc.granted, minDe := max d.next f.tc.granted })
    (h : Has g P f.tc.deps) (hR : Each R f.tc.deps) (T : Time) (hT : returned (f.step limit o) = some T) :
    ∃ c : TC, c.info = f.tc.info ∧ Has g Q c.deps ∧ Each R c.deps ∧ (plainRequest f o → c.iterating = .noIterations) ∧
      Permits c T := by
  cases o with
  | msg cmd =>
    have hsil : cmd.source = g → ∀ d, P d → P (d.process cmd).1 :=
      fun e d hd => hP.silent cmd d (hl.1 e).1 (hl.1 e).2 hd
    have he := process_effect f cmd hs (fun hx => ho.2 ⟨Or.inl hx.1, hx.2.1, hx.2.2⟩) hi.self
    obtain ⟨c, hc, hd, ht⟩ := granted_permitted he hi hs hl.2.2 T hT
    exact ⟨c, congrArg Core.info hc, ((has_tableAfter hP.robust h cmd hl.2.1 hsil).dr hP.robust hd hg hsil).mono hpq,
      (each_tableAfter hR K cmd hk).dr K hd hk, fun hp => (congrArg Core.iterating hc).trans hp, ht⟩
  | timeRequest t it nv nm =>
    simp only [step] at hT
    split at hT
    · unfold request at hT
      have hsf := timeRequest_fields f.tc t (f.limitIter limit it) nv nm
      obtain ⟨e1, e2, e3, e4, e5, e6, e7, e8⟩ := hsf
      have hinv : Inv { f with tc := f.tc.timeRequest t (f.limitIter limit it) nv nm, mode := false } := by
        refine ⟨⟨?_, ?_, ?_, ?_⟩, ?_, ?_⟩
        · show TC.grantBase _ = TC.granted _; rw [e1, e2]; exact hi.good.base
        · show TC.granted _ ≤ _; rw [e1]; exact hi.good.range
        · show _ ≤ (TC.info _).timeDelta ∧ _; rw [e3]; exact hi.good.delta
        · show _ ≤ (TC.info _).offset ∧ _; rw [e3]; exact hi.good.offset
        · show TC.self _ ≠ _; rw [e4]; exact hi.self
        · intro _ _
          show TC.granted _ ≤ TC.requested _
          rw [e1, e8]
          have := nextPossible_ge' f.tc hi.good
          split <;> split <;> omega
      have he := process_effect { f with tc := f.tc.timeRequest t (f.limitIter limit it) nv nm, mode := false }
        { action := .timeCheck, source := f.tc.self, dest := f.tc.self, actionTime := t } hs
        (fun hx => by have := hx.1; cases this) hinv.self
      have h0 : Has g Q (f.tc.timeRequest t (f.limitIter limit it) nv nm).deps := by
        rw [deps_timeRequest]
        refine h.map _ (fun d hd hdep => ?_)
        rw [if_pos hdep]
        exact ⟨rfl, rfl, hreq d hd⟩
      have h1 : Each R (f.tc.timeRequest t (f.limitIter limit it) nv nm).deps := by
        rw [deps_timeRequest]; exact hR.resetEvents K _ trivial
      obtain ⟨c, hc, hd, ht⟩ := granted_permitted he hinv hs (by simp) T hT
      rw [tableAfter_check _ _ (Or.inr rfl)] at hd
      refine ⟨c, (congrArg Core.info hc).trans e3, ?_, ?_, ?_, ht⟩
      · exact h0.dr hQ.robust hd (by show g ≠ TC.self _; rw [e4]; exact hg) (fun e => absurd e.symm hg)
      · have K' : Kept (f.tc.timeRequest t (f.limitIter limit it) nv nm).self ok R := by rw [e4]; exact K
        exact h1.dr K' hd (hown _ rfl (Or.inl rfl))
      · intro hp
        have hp : it = .noIterations := hp
        refine (congrArg Core.iterating hc).trans (e5.trans ?_)
        rw [hp, limit_noIter]
    · unfold returned at hT; rw [if_pos hs] at hT; cases hT
  | execRequest it =>
    simp only [step] at hT
    rw [if_neg (by rw [hs]; simp)] at hT
    unfold returned at hT; rw [if_pos hs] at hT; cases hT
  | value cmd => rw [returned_none (by simp [step]) (by simp [step]) (by simp [step])] at hT; cases hT
  | message cmd => rw [returned_none (by simp [step]) (by simp [step]) (by simp [step])] at hT; cases hT
  | setTime p v =>
    simp only [step] at hT
    split at hT <;> (rw [returned_none (by simp) (by simp) (by simp)] at hT; cases hT)
  | setFlag p v => rw [returned_none (by simp [step]) (by simp [step]) (by simp [step])] at hT; cases hT
  | setMaxIterations v => rw [returned_none (by simp [step]) (by simp [step]) (by simp [step])] at hT; cases hT

/-- The latest time a dependency that announced `(n, e)` permits to a federate holding time `held`. -/
def latest (restrictive : Bool) (n e held : Time) : Time := if restrictive then n else max n (max e held)

/-- The bound is far enough from the end of the simulation for the end-of-simulation rule not to apply. -/
def far (info : TCOptions) (B : Time) : Prop :=
  B + info.inputDelay + info.outputDelay + max info.period info.timeDelta < cTerm

theorem permits_bound {g : FedId} {n x T : Time} {c : TC} (hd : 1 ≤ c.info.timeDelta ∧ 0 ≤ c.info.inputDelay ∧ 0 ≤ c.info.outputDelay ∧ 0 ≤ c.info.period)
    (h : Has g (Says n x) c.deps) (hg : g ≠ invalidFed) (hn : 0 ≤ n) (hnx : n ≤ x) {B : Time}
    (hB : (if c.info.restrictive then n else x) ≤ B) (hfar : far c.info B) (hT : Permits c T) :
    T ≤ c.info.inputDelay + B ∧
    (c.info.waitForCurrent = true → c.iterating = .noIterations → T < c.info.inputDelay + B) := by
  unfold far at hfar
  have ha := allow_le h hg hn hd.2.1 B (by
    refine Int.le_trans ?_ hB
    cases c.info.restrictive <;> cases c.globalTime <;> simp <;> omega) hfar
  have hct : cTerm < maxVal := by decide
  have hlim : T ≤ c.info.inputDelay + B := by
    rcases hT.limit with ⟨_, h2⟩ | h2
    · exfalso
      have := hd.1
      omega
    · omega
  refine ⟨hlim, fun hw hi => ?_⟩
  rcases hT.plain hi with h1 | h1 | ⟨h1, _⟩ | h1
  · have := hd.1; omega
  · omega
  · rw [hw] at h1; cases h1
  · obtain ⟨d, hm, e1, e2, ⟨e3, e4⟩, e5, e6⟩ := h
    unfold readyForTimeGrant at h1
    simp only [Bool.false_eq_true, if_false, hw, getDelayMode, if_true, List.all_eq_true] at h1
    have := h1 d hm
    unfold grantCheck at this
    simp only [e2, Bool.not_true, Bool.false_or, decide_eq_true_eq, e5, e4, if_false] at this
    have hnB : n ≤ B := by split at hB <;> omega
    split at this
    · have := hd.1; omega
    · split at this
      · cases this
      · have := hd.2.1; omega

/-- what is known about `g` after its word and any events without another word of it -/
def Known (g : FedId) (n e : Time) (u : Fed) : Prop :=
  u.state.rank ≤ FedState.executing.rank → ∃ x, n ≤ x ∧ Has g (Says n x) u.tc.deps ∧
    (x ≤ max n e ∨ (u.state = .executing ∧ x ≤ max n (max e u.tc.granted)))

theorem rank_exec {s t : FedState} (h : s = .executing) (h1 : s.rank ≤ t.rank) (h2 : t.rank ≤ FedState.executing.rank) :
    t = .executing := by
  subst h
  cases t <;> simp [FedState.rank] at h1 h2 ⊢

theorem known_step {limit : Int} {f : Fed} {g : FedId} {n e : Time} (hi : Inv f) (o : FedOp) (ho : o.sane f.tc.self)
    (hl : leaves g o) (hg : g ≠ f.tc.self) (h : Known g n e f) : Known g n e (f.step limit o).1 := by
  intro hr
  have hok := step_ok limit f o hi ho
  obtain ⟨x, hnx, hh, hx⟩ := h (Nat.le_trans hok.rank hr)
  have hst := has_step (limit := limit) hi o ho hl hg (lasting_says g hnx) (lasting_says g (n := n) (x := max x f.tc.granted) (by omega))
    (fun d hd => ⟨hd.1, hd.2.1, by have := hd.2.2; omega⟩)
    (fun d hd => ⟨hd.1, hd.2.1, by show max d.next f.tc.granted ≤ _; rw [hd.2.1]; omega⟩) hh
  by_cases hs : f.state = .executing
  · rw [if_pos hs] at hst
    have hs' := rank_exec hs hok.rank hr
    have hm := hok.mono hs hs'
    refine ⟨max x f.tc.granted, by omega, hst, Or.inr ⟨hs', ?_⟩⟩
    rcases hx with hx | ⟨_, hx⟩ <;> omega
  · rw [if_neg hs] at hst
    refine ⟨x, hnx, hst, Or.inl ?_⟩
    rcases hx with hx | ⟨hx, _⟩
    · exact hx
    · exact absurd hx hs

theorem known_run {limit : Int} {f : Fed} {g : FedId} {n e : Time} (hi : Inv f) (post : List FedOp)
    (ho : ∀ o ∈ post, o.sane f.tc.self ∧ leaves g o) (hg : g ≠ f.tc.self) (h : Known g n e f) :
    Known g n e (f.run limit post) := by
  induction post generalizing f with
  | nil => exact h
  | cons o os ih =>
    have ho' := ho o (by simp)
    have hok := step_ok limit f o hi ho'.1
    exact ih hok.inv (fun o h => by rw [hok.self]; exact ho o (by simp [h])) (by rw [hok.self]; exact hg)
      (known_step hi o ho'.1 ho'.2 hg h)

theorem word_notBlock {m : Msg} (h : word m ≠ .silent) : m.action ≠ .timeBlock ∧ m.action ≠ .timeUnblock ∧
    m.action ≠ .timeBarrier ∧ m.action ≠ .timeBarrierClear ∧ m.action ≠ .forceTimeGrant := by
  refine ⟨?_, ?_, ?_, ?_, ?_⟩ <;> (intro e; apply h; unfold word; rw [e])

/-- the table right after a word of `g` -/
theorem table_word {f : Fed} {m : Msg} {P : DepInfo → Prop} (hd : f.tc.deps.isDependency m.source = true)
    (hh : hears f.tc.self m = true) (hw : word m ≠ .silent) (hq : Each (OwnMark f.tc.self) f.tc.deps)
    (hg : m.source ≠ f.tc.self) (hP : ∀ d : DepInfo, d.connection ≠ .self → P (d.process m).1) :
    Has m.source P (f.tc.tableAfter m) := by
  unfold tableAfter
  rw [if_neg (by rw [hears_notUpdate _ _ hh]; simp), if_pos hh]
  exact has_announce_msg hd (word_notBlock hw) hq (hq.removeDependent (kept_ownMark _) _)
    (fun d h1 h2 => hP d (fun e => hg (h2.symm.trans (h1 e))))

theorem says_max {n e : Time} {d : DepInfo} (h : Says n e d) : Says n (max n e) d := ⟨h.1, h.2.1, by have := h.2.2; omega⟩

theorem known_word {f : Fed} {m : Msg} {n e : Time} (hi : Inv f) (hs : m.sane f.tc.self)
    (hd : f.tc.deps.isDependency m.source = true) (hh : hears f.tc.self m = true) (hg : m.source ≠ f.tc.self)
    (hq : Each (OwnMark f.tc.self) f.tc.deps)
    (hw : word m = .at n e) : Known m.source n e (f.process m).1 := by
  intro _
  refine ⟨max n e, by omega, ?_, Or.inl (by omega)⟩
  have h0 : Has m.source (Says n (max n e)) (f.tc.tableAfter m) :=
    table_word hd hh (by rw [hw]; simp) hq hg (fun d hc => says_max (process_at m d n e hw hc))
  exact h0.dr (robust_says (by omega)) (dr_process f m hs.1 hi.self) hg (fun _ d h => says_max (process_at m d n e hw h.1.2))

/-- **C04** (the answer to the word itself).  When the timing command `m` of a dependency, announcing `(n, e)`,
makes the federate's pending request return a time, that time is at most the input delay past what was announced
(`latest` with the announced times only), and strictly less for a federate that waits for the current time and
does not iterate. -/
theorem C04_limit_at_once (limit : Int) (f : Fed) (m : Msg) (n e T : Time)
    (hf : Reached limit f) (hs : f.state = .executing) (hg : m.source ≠ f.tc.self) (hgv : m.source ≠ invalidFed)
    (hd : f.tc.deps.isDependency m.source = true) (hm : m.sane f.tc.self) (hh : hears f.tc.self m = true)
    (hw : word m = .at n e) (hn : 0 ≤ n)
    (hT : returned (f.step limit (.msg m)) = some T)
    (hfar : far f.tc.info (latest f.tc.info.restrictive n e n)) :
    T ≤ f.tc.info.inputDelay + latest f.tc.info.restrictive n e n ∧
    (f.tc.info.waitForCurrent = true → f.tc.iterating = .noIterations →
      T < f.tc.info.inputDelay + latest f.tc.info.restrictive n e n) := by
  have hi := hf.inv
  have hq := hf.ownMark
  have h0 : Has m.source (Says n (max n e)) (f.tc.tableAfter m) :=
    table_word hd hh (by rw [hw]; simp) hq hg (fun d hc => says_max (process_at m d n e hw hc))
  have he := process_effect f m hs (fun hx => hm.2 ⟨Or.inl hx.1, hx.2.1, hx.2.2⟩) hi.self
  obtain ⟨c, hc, hdr, ht⟩ := granted_permitted he hi hs (word_notBlock (by rw [hw]; simp)).2.2.2.2 T hT
  have hinfo : c.info = f.tc.info := congrArg Core.info hc
  have hit : c.iterating = f.tc.iterating := congrArg Core.iterating hc
  have := permits_bound (B := latest f.tc.info.restrictive n e n) (by rw [hinfo]; exact hi.good.delta)
    (h0.dr (robust_says (by omega)) hdr hg (fun _ d h => says_max (process_at m d n e hw h.1.2))) hgv hn (by omega)
    (by rw [hinfo]; unfold latest; split <;> omega) (by rw [hinfo]; exact hfar) ht
  rw [hinfo, hit] at this
  exact this

/-- **C04** (until the next word).  Let a dependency announce `(n, e)` at any moment of the federate's life, and
let any events follow that contain no further word of it (and do not unregister it).  A time then handed to the
federate by such an event is at most the input delay past
- `n`, the next time it announced, for a federate set to restrictive time policy;
- the latest of `n`, the event time `e` it announced, and the time the federate already holds, otherwise.
For a federate that waits for the current time and does not iterate it is strictly less. -/
theorem C04_limit (limit : Int) (f : Fed) (m : Msg) (n e : Time) (post : List FedOp) (o : FedOp) (T : Time)
    (hf : Reached limit f) (hg : m.source ≠ f.tc.self) (hgv : m.source ≠ invalidFed)
    (hd : f.tc.deps.isDependency m.source = true) (hm : m.sane f.tc.self) (hh : hears f.tc.self m = true)
    (hw : word m = .at n e) (hn : 0 ≤ n)
    (hpost : ∀ p ∈ post, p.sane f.tc.self ∧ leaves m.source p) (ho : o.sane f.tc.self) (hl : leaves m.source o) :
    let u := f.run limit (.msg m :: post)
    let B := latest u.tc.info.restrictive n e u.tc.granted
    u.state = .executing → returned (u.step limit o) = some T → far u.tc.info B →
    T ≤ u.tc.info.inputDelay + B ∧
    (u.tc.info.waitForCurrent = true → plainRequest u o → T < u.tc.info.inputDelay + B) := by
  intro u B hs hT hfar
  have hi := hf.inv
  have hok := step_ok limit f (.msg m) hi hm
  have hk := known_word hi hm hd hh hg hf.ownMark hw
  have hrun := run_ok limit (f.step limit (.msg m)).1 post hok.inv (fun o h => by rw [hok.self]; exact (hpost o h).1)
  have hku : Known m.source n e u :=
    known_run hok.inv post (fun o h => by rw [hok.self]; exact hpost o h) (by rw [hok.self]; exact hg) hk
  have hself : u.tc.self = f.tc.self := hrun.2.2.trans hok.self
  have hui : Inv u := hrun.1
  obtain ⟨x, hnx, hx, hxb⟩ := hku (by rw [hs]; exact Nat.le_refl _)
  obtain ⟨c, hinfo, hhas, _, hpl, ht⟩ := step_permitted (f := u) (P := Says n x) (Q := Says n (max x u.tc.granted))
    (R := fun _ => True) (ok := fun _ => True) hui hs o (by rw [hself]; exact ho) (by cases o <;> trivial)
    ⟨fun _ _ _ => trivial, fun _ _ _ _ => trivial, fun _ _ => trivial, fun _ _ => trivial, fun _ _ _ => trivial,
     fun _ _ _ _ => trivial, fun _ _ _ => trivial, fun _ _ _ _ => trivial, fun _ _ _ => trivial, fun _ _ _ _ _ => trivial,
     fun _ _ _ _ _ _ => trivial⟩ (fun _ _ _ => trivial) hl (by rw [hself]; exact hg) (lasting_says _ hnx)
    (lasting_says _ (by omega)) (fun d hd => ⟨hd.1, hd.2.1, by have := hd.2.2; omega⟩)
    (fun d hd => ⟨hd.1, hd.2.1, by show max d.next u.tc.granted ≤ _; rw [hd.2.1]; omega⟩) hx (fun _ _ => trivial) T hT
  have := permits_bound (B := B) (by rw [hinfo]; exact hui.good.delta) hhas hgv hn (by omega) (by
    rw [hinfo]
    show _ ≤ latest u.tc.info.restrictive n e u.tc.granted
    unfold latest
    split
    · omega
    · rcases hxb with h | ⟨_, h⟩ <;> omega) (by rw [hinfo]; exact hfar) ht
  rw [hinfo] at this
  exact ⟨this.1, fun h1 h2 => this.2 h1 (hpl h2)⟩

/-! ### Before the first announcement -/

theorem nonneg_own (self : FedId) : ∀ m : Msg, m.source = self → m.action = .timeCheck ∨ m.action = .execRequest → nonneg m := by
  intro m _ h hx
  rcases h with h | h <;> rw [h] at hx <;> rcases hx with h | h <;> cases h

theorem permits_init {g : FedId} {T : Time} {c : TC}
    (hd : 1 ≤ c.info.timeDelta ∧ 0 ≤ c.info.inputDelay ∧ 0 ≤ c.info.outputDelay ∧ 0 ≤ c.info.period)
    (h : Has g NotStarted c.deps) (hn : Each NextNonneg c.deps) (hg : g ≠ invalidFed) (hfar : far c.info 0)
    (hT : Permits c T) : T < c.info.inputDelay := by
  obtain ⟨d, hm, h1, h2, h3⟩ := h
  have ht := total_init hm h2 (by rw [h1]; exact hg) h3 (fun e he _ => hn e he) (c.info.restrictive || c.globalTime) c.seq
  unfold far at hfar
  have hi : initializationTime = -1 := rfl
  have ha : c.updateTimeFactors.allow = c.info.inputDelay - 1 := by
    rw [updateTimeFactors_allow]
    simp only
    rw [ht, if_pos (by omega)]
    omega
  have := hd.1
  rcases hT.limit with ⟨_, h⟩ | h <;> omega

/-- from a moment when `g` is known not to have started -/
theorem silent_dependency (limit : Int) (f : Fed) (g : FedId) (post : List FedOp) (o : FedOp) (T : Time)
    (hi : Inv f) (hn : Each NextNonneg f.tc.deps) (h : Has g NotStarted f.tc.deps) (hg : g ≠ f.tc.self)
    (hgv : g ≠ invalidFed)
    (hpost : ∀ p ∈ post, p.sane f.tc.self ∧ opOk nonneg p ∧ leaves g p) (ho : o.sane f.tc.self ∧ opOk nonneg o ∧ leaves g o) :
    (f.run limit post).state = .executing → returned ((f.run limit post).step limit o) = some T →
    far (f.run limit post).tc.info 0 → T < (f.run limit post).tc.info.inputDelay := by
  induction post generalizing f with
  | nil =>
    intro hs hT hfar
    obtain ⟨c, hinfo, hhas, hn', _, ht⟩ := step_permitted (f := f) (P := NotStarted) (Q := NotStarted) (limit := limit)
      (R := NextNonneg) (ok := nonneg) hi hs o ho.1 ho.2.1 (kept_nextNonneg _) (nonneg_own _) ho.2.2 hg
      (lasting_notStarted _) (lasting_notStarted _) (fun _ h => h) (fun _ h => h) h hn T hT
    have := permits_init (c := c) (by rw [hinfo]; exact hi.good.delta) hhas hn' hgv (by rw [hinfo]; exact hfar) ht
    rw [hinfo] at this
    exact this
  | cons p ps ih =>
    have hp := hpost p (by simp)
    have hok := step_ok limit f p hi hp.1
    have hst := has_step (limit := limit) hi p hp.1 hp.2.2 hg (lasting_notStarted g) (lasting_notStarted g)
      (fun _ h => h) (fun _ h => h) h
    rw [ite_self] at hst
    exact ih (f.step limit p).1 hok.inv (each_step hi p hp.1 hp.2.1 (kept_nextNonneg _) (fun _ => trivial) (nonneg_own _) hn) hst
      (by rw [hok.self]; exact hg) (fun q hq => by rw [hok.self]; exact hpost q (by simp [hq]))
      (by rw [hok.self]; exact ho)

/-- **C04** (a dependency that has not started).  Take any history in which announced times are not negative.
After a dependency asked to enter executing mode (or was told to iterate before it), and until it speaks again,
every time handed to the federate is below its input delay - with no input delay, nothing is granted at all. -/
theorem C04_not_started (limit : Int) (own : FedId) (ok ng gt : Bool) (pre : List FedOp) (m : Msg) (post : List FedOp)
    (o : FedOp) (T : Time) (hid : own ≠ parentBroker)
    (hpre : ∀ p ∈ pre, p.sane own ∧ opOk nonneg p) (hm : m.sane own) (hh : hears own m = true)
    (hg : m.source ≠ own) (hgv : m.source ≠ invalidFed)
    (hd : ((Fed.initial own ok ng gt).run limit pre).tc.deps.isDependency m.source = true)
    (hw : word m = .notStarted)
    (hpost : ∀ p ∈ post, p.sane own ∧ opOk nonneg p ∧ leaves m.source p)
    (ho : o.sane own ∧ opOk nonneg o ∧ leaves m.source o) :
    let u := (Fed.initial own ok ng gt).run limit (pre ++ .msg m :: post)
    u.state = .executing → returned (u.step limit o) = some T → far u.tc.info 0 → T < u.tc.info.inputDelay := by
  intro u
  have hi0 := initial_inv own ok ng gt hid
  have hr := run_ok limit _ pre hi0 (fun o h => (hpre o h).1)
  have hself : ((Fed.initial own ok ng gt).run limit pre).tc.self = own := hr.2.2
  have hq : Each (OwnMark own) ((Fed.initial own ok ng gt).run limit pre).tc.deps := by
    have := Reached.ownMark (limit := limit) ⟨own, ok, ng, gt, pre, hid, fun o h => (hpre o h).1, rfl⟩
    rw [hself] at this
    exact this
  have hn : Each NextNonneg ((Fed.initial own ok ng gt).run limit pre).tc.deps :=
    each_run hi0 pre (ok := nonneg) hpre (kept_nextNonneg _) (nonneg_own _) (fun _ h => nomatch h)
  have hu : u = (((Fed.initial own ok ng gt).run limit pre).step limit (.msg m)).1.run limit post := by
    show Fed.run _ _ _ = _
    unfold Fed.run
    rw [List.foldl_append, List.foldl_cons]
  rw [hu]
  generalize (Fed.initial own ok ng gt).run limit pre = f at hr hself hq hn hd
  have hi := hr.1
  subst hself
  have hok := step_ok limit f (.msg m) hi hm
  have hnm : nonneg m := by
    intro h
    unfold word at hw
    rcases h with h | h <;> rw [h] at hw <;> cases hw
  have h0 : Has m.source NotStarted (f.tc.tableAfter m) :=
    table_word hd hh (by rw [hw]; simp) hq hg (fun d _ => process_notStarted m d hw)
  have h1 : Has m.source NotStarted (f.step limit (.msg m)).1.tc.deps :=
    h0.dr robust_notStarted (dr_process f m hm.1 hi.self) hg (fun _ d _ => process_notStarted m d hw)
  exact silent_dependency limit (f.step limit (.msg m)).1 m.source post o T hok.inv
    (each_step hi (.msg m) hm (ok := nonneg) hnm (kept_nextNonneg _) (fun _ => trivial) (nonneg_own _) hn) h1 (by rw [hok.self]; exact hg) hgv
    (fun p hp => by rw [hok.self]; exact hpost p hp) (by rw [hok.self]; exact ho)

theorem has_fresh (ds : Deps) (g : FedId) {P : DepInfo → Prop} (hP : P { DepInfo.ofId g with dependency := true })
    (h : ds.find g = none) : Has g P (Deps.addDependency ds g).1 := by
  unfold Deps.find at h
  unfold Deps.addDependency
  split
  · exact ⟨{ DepInfo.ofId g with dependency := true }, List.mem_append_right _ (List.mem_cons_self ..), rfl, rfl, hP⟩
  · rename_i d rest hd
    rw [hd] at h
    simp only at h
    split at h
    · cases h
    · rename_i hne
      rw [if_neg hne]
      exact ⟨{ DepInfo.ofId g with dependency := true }, List.mem_append_right _ (List.mem_cons_self ..), rfl, rfl, hP⟩

/-- facts true of an entry just made -/
structure Fresh (P : DepInfo → Prop) : Prop where
  new : ∀ g, P { DepInfo.ofId g with dependency := true }
  conn : ∀ d c, c ≠ Conn.self → P d → P { d with connection := c }
  version : ∀ d v, P d → P { d with timingVersion := v }

/-- the table right after a federate new to it is added as a dependency -/
theorem table_new {f : Fed} {m : Msg} {P : DepInfo → Prop} (hF : Fresh P) (hR : Robust P)
    (ha : m.action = .addDependency ∨ m.action = .addInterdependency)
    (hdst : m.dest = f.tc.self) (hg : m.source ≠ f.tc.self) (hnew : f.tc.deps.find m.source = none) :
    Has m.source P (f.tc.tableAfter m) := by
  have hadd : Has m.source P (f.tc.addDependency m.source).1.deps := by
    unfold TC.addDependency
    simp only
    split
    · rename_i e; exact absurd e.2 hg
    · exact has_fresh _ _ (hF.new _) hnew
  have htail : ∀ r : TC × Bool, Has m.source P r.1.deps →
      Has m.source P (if r.2 then
        let tc := if m.child then r.1.setConn m.source .child else r.1
        let tc := if m.parent then tc.setConn m.source .parent else tc
        if m.counter > 0 then
          { tc with deps := tc.deps.modify m.source (fun d => { d with timingVersion := toI8 m.counter }) }
        else tc
      else r.1 : TC).deps := by
    intro r hr
    have hset : ∀ (t : TC) (c : Conn), c ≠ .self → Has m.source P t.deps → Has m.source P (t.setConn m.source c).deps := by
      intro t c hc h
      unfold TC.setConn
      split
      · exact h
      · exact h.modify _ _ (fun _ d hd => ⟨rfl, rfl, hF.conn d c hc hd⟩)
    split
    · have h1 : Has m.source P (if m.child then r.1.setConn m.source .child else r.1 : TC).deps := by
        split
        · exact hset _ _ (by decide) hr
        · exact hr
      generalize (if m.child then r.1.setConn m.source .child else r.1 : TC) = t1 at h1 ⊢
      have h3 : Has m.source P (if m.parent then t1.setConn m.source .parent else t1 : TC).deps := by
        split
        · exact hset _ _ (by decide) h1
        · exact h1
      simp only
      generalize (if m.parent then t1.setConn m.source .parent else t1 : TC) = t2 at h3 ⊢
      split
      · exact h3.modify _ _ (fun _ d hd => ⟨rfl, rfl, hF.version d _ hd⟩)
      · exact h3
    · exact hr
  unfold tableAfter
  rw [if_pos ⟨by rcases ha with e | e <;> rw [e] <;> rfl, hdst⟩]
  unfold processDependencyUpdate
  apply htail
  rcases ha with e | e <;> rw [e]
  · exact hadd
  · exact hadd.addDependent _ hR.on

theorem fresh_notStarted : Fresh NotStarted := ⟨fun _ => rfl, fun _ _ _ h => h, fun _ _ h => h⟩

/-- **C04** (a dependency just added).  The same holds from the moment a federate is added as a dependency, at any
time of the history - also while the federate is executing -, until that federate speaks for the first time. -/
theorem C04_new_dependency (limit : Int) (own : FedId) (ok ng gt : Bool) (pre : List FedOp) (m : Msg) (post : List FedOp)
    (o : FedOp) (T : Time) (hid : own ≠ parentBroker)
    (hpre : ∀ p ∈ pre, p.sane own ∧ opOk nonneg p) (hm : m.sane own)
    (ha : m.action = .addDependency ∨ m.action = .addInterdependency) (hdst : m.dest = own)
    (hg : m.source ≠ own) (hgv : m.source ≠ invalidFed)
    (hnew : ((Fed.initial own ok ng gt).run limit pre).tc.deps.find m.source = none)
    (hpost : ∀ p ∈ post, p.sane own ∧ opOk nonneg p ∧ leaves m.source p)
    (ho : o.sane own ∧ opOk nonneg o ∧ leaves m.source o) :
    let u := (Fed.initial own ok ng gt).run limit (pre ++ .msg m :: post)
    u.state = .executing → returned (u.step limit o) = some T → far u.tc.info 0 → T < u.tc.info.inputDelay := by
  intro u
  have hi0 := initial_inv own ok ng gt hid
  have hr := run_ok limit _ pre hi0 (fun o h => (hpre o h).1)
  have hself : ((Fed.initial own ok ng gt).run limit pre).tc.self = own := hr.2.2
  have hn : Each NextNonneg ((Fed.initial own ok ng gt).run limit pre).tc.deps :=
    each_run hi0 pre (ok := nonneg) hpre (kept_nextNonneg _) (nonneg_own _) (fun _ h => nomatch h)
  have hu : u = (((Fed.initial own ok ng gt).run limit pre).step limit (.msg m)).1.run limit post := by
    show Fed.run _ _ _ = _
    unfold Fed.run
    rw [List.foldl_append, List.foldl_cons]
  rw [hu]
  generalize (Fed.initial own ok ng gt).run limit pre = f at hr hself hn hnew
  have hi := hr.1
  subst hself
  have hok := step_ok limit f (.msg m) hi hm
  have hnm : nonneg m := by
    intro h
    rcases ha with e | e <;> rw [e] at h <;> rcases h with h | h <;> cases h
  have hsil : word m = .silent := by unfold word; rcases ha with e | e <;> rw [e]
  have h1 : Has m.source NotStarted (f.step limit (.msg m)).1.tc.deps :=
    (table_new fresh_notStarted robust_notStarted ha hdst hg hnew).dr robust_notStarted (dr_process f m hm.1 hi.self) hg
      (fun _ d hd => (lasting_notStarted m.source).silent m d hsil (by unfold plainQuery; rcases ha with e | e <;> rw [e] <;> exact (nomatch ·)) hd)
  exact silent_dependency limit (f.step limit (.msg m)).1 m.source post o T hok.inv
    (each_step hi (.msg m) hm (ok := nonneg) hnm (kept_nextNonneg _) (fun _ => trivial) (nonneg_own _) hn) h1 (by rw [hok.self]; exact hg) hgv
    (fun p hp => by rw [hok.self]; exact hpost p hp) (by rw [hok.self]; exact ho)

/-! ### Witnesses -/

/-- Federate 8 announces 10; federate 7 asks for 10 and for 20: it is granted 10, the bound, and not 20. -/
example : Reached 100 demo ∧
    (demo.run 100 [fromEight .timeRequest 10]).state = .executing ∧
    returned ((demo.run 100 [fromEight .timeRequest 10]).step 100 (.timeRequest 10 .noIterations maxVal maxVal)) = some 10 ∧
    returned ((demo.run 100 [fromEight .timeRequest 10]).step 100 (.timeRequest 20 .noIterations maxVal maxVal)) = none ∧
    (demo.run 100 [fromEight .timeRequest 10]).tc.info.inputDelay + latest
      (demo.run 100 [fromEight .timeRequest 10]).tc.info.restrictive 10 10 (demo.run 100 [fromEight .timeRequest 10]).tc.granted = 10 ∧
    leaves 8 (.timeRequest 10 .noIterations maxVal maxVal) :=
  ⟨demo_reached, by decide, by decide, by decide, by decide, trivial⟩

/-- The same with the request made first: the announcement itself produces the grant. -/
example : returned ((demo.run 100 [.timeRequest 10 .noIterations maxVal maxVal]).step 100 (fromEight .timeRequest 10)) = some 10 ∧
    demo.tc.deps.isDependency 8 = true ∧
    hears demo.tc.self { action := .timeRequest, source := 8, dest := 7, actionTime := 10, Te := 10, Tdemin := 10 } = true := by
  refine ⟨by decide, by decide, by decide⟩

/-- Federate 7 is executing; federate 9 is added as a dependency: the request for 10 waits although 8 is far ahead. -/
example : demo.tc.deps.find 9 = none ∧
    (demo.run 100 [.msg { action := .addDependency, source := 9, dest := 7 }, fromEight .timeRequest 50]).state = .executing ∧
    returned ((demo.run 100 [.msg { action := .addDependency, source := 9, dest := 7 }, fromEight .timeRequest 50]).step 100
      (.timeRequest 10 .noIterations maxVal maxVal)) = none ∧
    returned ((demo.run 100 [fromEight .timeRequest 50]).step 100 (.timeRequest 10 .noIterations maxVal maxVal)) = some 10 := by
  refine ⟨by decide, by decide, by decide, by decide⟩

/-- With an input delay of 30 a time below 30 is granted before the dependency has started: the bound is sharp. -/
example : returned (((demo.run 100 [.setTime .inputDelay 30, .msg { action := .addDependency, source := 9, dest := 7 },
      fromEight .timeRequest 50]).step 100 (.timeRequest 29 .noIterations maxVal maxVal))) = some 29 ∧
    returned (((demo.run 100 [.setTime .inputDelay 30, .msg { action := .addDependency, source := 9, dest := 7 },
      fromEight .timeRequest 50]).step 100 (.timeRequest 30 .noIterations maxVal maxVal))) = none := by
  refine ⟨by decide, by decide⟩

end Causal
end Verif
