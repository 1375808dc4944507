import Verif.Props.GlobalSpec
import Verif.Lemmas.Deps
/-! Step-by-step facts about the coordinator of a broker that keeps a master clock. -/
namespace Verif
namespace Glob

theorem run_append (g : Glob) (a b : List Msg) : run g (a ++ b) = run (run g a) b := by
  unfold run; rw [List.foldl_append]

theorem run_snoc (g : Glob) (a : List Msg) (m : Msg) : run g (a ++ [m]) = handle (run g a) m := by
  rw [run_append]; rfl

theorem incSeq_ne (c : Int) : incSeq c ≠ c := by unfold incSeq; split <;> omega
theorem normSeq_incSeq (c : Int) : Fwd.normSeq (incSeq c) = incSeq c := by
  unfold Fwd.normSeq incSeq; split <;> (try split) <;> omega

theorem trigTime_le (e : Time) : trigTime e ≤ e + timeEpsilon := by
  unfold trigTime timeEpsilon; split <;> omega
theorem trigTime_mono {a b : Time} (h : a ≤ b) : trigTime a ≤ trigTime b := by
  unfold trigTime timeEpsilon; split <;> split <;> omega

/-! ## What recording a command does -/

theorem mem_modify {ds : Deps} {g : FedId} {f : DepInfo → DepInfo} {x : DepInfo} (h : x ∈ Deps.modify ds g f) :
    x ∈ ds ∨ ∃ d ∈ ds, d.fedID = g ∧ x = f d := by
  unfold Deps.modify at h
  split at h
  · exact Or.inl h
  · rename_i e rest he
    have hds : ds = Deps.before ds g ++ e :: rest := by rw [← he, Deps.before_append_fromLB]
    split at h
    · rename_i hg
      rcases List.mem_append.1 h with h | h
      · exact Or.inl (hds ▸ List.mem_append.2 (Or.inl h))
      · rcases List.mem_cons.1 h with h | h
        · exact Or.inr ⟨e, hds ▸ List.mem_append.2 (Or.inr (List.mem_cons.2 (Or.inl rfl))), hg, h⟩
        · exact Or.inl (hds ▸ List.mem_append.2 (Or.inr (List.mem_cons.2 (Or.inr h))))
    · exact Or.inl h

theorem mem_updateTime {ds : Deps} {m : Msg} {x : DepInfo} (h : x ∈ (Deps.updateTime ds m).1) :
    x ∈ ds ∨ ∃ d ∈ ds, d.fedID = m.source ∧ x = (d.process m).1 := by
  unfold Deps.updateTime at h
  split at h
  · exact Or.inl h
  · split at h
    · exact Or.inl h
    · exact mem_modify h

theorem mem_removeDependent {ds : Deps} {g : FedId} {x : DepInfo} (h : x ∈ Deps.removeDependent ds g) :
    x ∈ ds ∨ ∃ d ∈ ds, d.fedID = g ∧ x = { d with dependent := false } := by
  unfold Deps.removeDependent at h
  split at h
  · exact Or.inl h
  · rename_i e rest he
    have hds : ds = Deps.before ds g ++ e :: rest := by rw [← he, Deps.before_append_fromLB]
    split at h
    · rename_i hg
      split at h
      · rcases List.mem_append.1 h with h | h
        · exact Or.inl (hds ▸ List.mem_append.2 (Or.inl h))
        · exact Or.inl (hds ▸ List.mem_append.2 (Or.inr (List.mem_cons.2 (Or.inr h))))
      · rcases List.mem_append.1 h with h | h
        · exact Or.inl (hds ▸ List.mem_append.2 (Or.inl h))
        · rcases List.mem_cons.1 h with h | h
          · exact Or.inr ⟨e, hds ▸ List.mem_append.2 (Or.inr (List.mem_cons.2 (Or.inl rfl))), hg, h⟩
          · exact Or.inl (hds ▸ List.mem_append.2 (Or.inr (List.mem_cons.2 (Or.inr h))))
    · exact Or.inl h

/-- the table before the update of an entry: leaving federates are no longer told anything -/
def preTable (ds : Deps) (m : Msg) : Deps :=
  match m.action with
  | .disconnect | .disconnectBroker | .disconnectFed | .disconnectCore | .broadcastDisconnect =>
    ds.removeDependent m.source
  | _ => ds

theorem mem_preTable {ds : Deps} {m : Msg} {x : DepInfo} (h : x ∈ preTable ds m) :
    ∃ d ∈ ds, x = d ∨ (d.fedID = m.source ∧ x = { d with dependent := false }) := by
  unfold preTable at h
  split at h
  all_goals first
    | (rcases mem_removeDependent h with h | ⟨d, h1, h2, h3⟩
       · exact ⟨x, h, Or.inl rfl⟩
       · exact ⟨d, h1, Or.inr ⟨h2, h3⟩⟩)
    | exact ⟨x, h, Or.inl rfl⟩

/-- packets that are complaints to the broker's own broker -/
def Complaint (p : Packet) : Prop := ∃ q, p = .single q ∧ q.action = .globalError ∧ q.counter = 0

theorem checkIssues_out (w : Fwd) : ∃ ps, w.checkIssues.out = w.out ++ ps ∧ ∀ p ∈ ps, Complaint p := by
  unfold Fwd.checkIssues
  dsimp only
  split
  · exact ⟨_, rfl, fun p hp => by
      rw [List.mem_singleton.1 hp]; exact ⟨_, rfl, rfl, rfl⟩⟩
  · exact ⟨[], by simp, fun p hp => by cases hp⟩

theorem checkIssues_frame (w : Fwd) : w.checkIssues.deps = w.deps ∧ w.checkIssues.seq = w.seq ∧
    w.checkIssues.entered = w.entered ∧ w.checkIssues.executionMode = w.executionMode ∧ w.checkIssues.self = w.self := by
  unfold Fwd.checkIssues Fwd.send
  dsimp only
  split <;> exact ⟨rfl, rfl, rfl, rfl, rfl⟩

theorem processBase_eq (w : Fwd) (m : Msg) : w.processBase m =
    (if (Deps.updateTime (preTable w.deps m) m).2 = .processedAndCheck
      then Fwd.checkIssues { w with deps := (Deps.updateTime (preTable w.deps m) m).1 }
      else { w with deps := (Deps.updateTime (preTable w.deps m) m).1 }, (Deps.updateTime (preTable w.deps m) m).2) := by
  unfold Fwd.processBase preTable
  cases m.action <;> rfl

theorem processBase_deps (w : Fwd) (m : Msg) :
    (w.processBase m).1.deps = (Deps.updateTime (preTable w.deps m) m).1 ∧
    (w.processBase m).2 = (Deps.updateTime (preTable w.deps m) m).2 := by
  rw [processBase_eq]
  refine ⟨?_, rfl⟩
  dsimp only
  split
  · rw [(checkIssues_frame _).1]
  · rfl

theorem processBase_frame (w : Fwd) (m : Msg) :
    (w.processBase m).1.seq = w.seq ∧ (w.processBase m).1.entered = w.entered ∧
    (w.processBase m).1.executionMode = w.executionMode ∧ (w.processBase m).1.self = w.self := by
  rw [processBase_eq]
  dsimp only
  split
  · obtain ⟨_, a, b, c, d⟩ := checkIssues_frame { w with deps := (Deps.updateTime (preTable w.deps m) m).1 }
    exact ⟨a, b, c, d⟩
  · exact ⟨rfl, rfl, rfl, rfl⟩

theorem processBase_out (w : Fwd) (m : Msg) : ∃ ps, (w.processBase m).1.out = w.out ++ ps ∧ ∀ p ∈ ps, Complaint p := by
  rw [processBase_eq]
  dsimp only
  split
  · exact checkIssues_out _
  · exact ⟨[], by simp, fun p hp => by cases hp⟩

/-- the state in which a started broker decides what to do about `m` -/
def received (g : Glob) (m : Msg) : Glob :=
  match m.action with
  | .execRequest | .execGrant | .timeRequest | .timeGrant | .requestCurrentTime | .disconnect | .priorityDisconnect
  | .localError => (g.processTimeMessage m).1
  | .addDependency | .removeDependency | .addDependent | .removeDependent | .addInterdependency | .removeInterdependency
  | .timingInfo => { g with base := g.base.processDependencyUpdate m }
  | _ => g

theorem handle_cases (g : Glob) (m : Msg) (he : g.base.entered = true) :
    handle g m = received g m ∨ handle g m = (received g m).updateTimeFactors := by
  unfold handle received
  cases m.action <;> (try dsimp only) <;> (try simp only [he, Bool.true_eq_false, false_and, and_false, if_false, if_true, true_or]) <;>
    (try split) <;> first | exact Or.inl rfl | exact Or.inr rfl

theorem processBase_res_new {w : Fwd} {m : Msg} (h : (w.processBase m).2 = .processedNewRequest) :
    m.action = .timeRequest ∧ ∃ d, w.deps.find m.source = some d ∧ d.dependency = true ∧ d.state = .granted ∧
      ¬ (m.delayedTiming = true ∧ d.delayedTiming = false) := by
  rw [(processBase_deps w m).2] at h
  unfold Deps.updateTime at h
  split at h
  · cases h
  · rename_i d hd
    split at h
    · cases h
    · rename_i hdep
      dsimp only at h
      have ha : m.action = .timeRequest ∧ d.state = .granted ∧ ¬ (m.delayedTiming = true ∧ d.delayedTiming = false) := by
        unfold DepInfo.process at h
        split at h
        case h_3 e =>
          refine ⟨e, ?_⟩
          dsimp only at h
          split at h
          · cases h
          · rename_i hdl
            split at h
            · rename_i hs
              refine ⟨hs, fun k => hdl ?_⟩
              rw [k.1, k.2]; rfl
            · cases h
        all_goals first
          | cases h; done
          | (exfalso; revert h; (try dsimp only); split <;> intro h <;> cases h)
      refine ⟨ha.1, d, ?_, by simpa using hdep, ha.2⟩
      have : preTable w.deps m = w.deps := by unfold preTable; rw [ha.1]
      rwa [this] at hd

theorem processBase_res_new' {w : Fwd} {m : Msg} (ha : m.action = .timeRequest) {d : DepInfo}
    (hd : w.deps.find m.source = some d) (hdep : d.dependency = true) (hs : d.state = .granted)
    (hdl : ¬ (m.delayedTiming = true ∧ d.delayedTiming = false)) : (w.processBase m).2 = .processedNewRequest := by
  rw [(processBase_deps w m).2]
  have : preTable w.deps m = w.deps := by unfold preTable; rw [ha]
  rw [this]
  unfold Deps.updateTime
  simp only [hd, hdep, Bool.not_true, Bool.false_eq_true, if_false]
  unfold DepInfo.process
  rw [ha]
  dsimp only
  rw [if_neg, if_pos hs]
  intro k
  apply hdl
  simpa using k

theorem received_newRequest (g : Glob) (m : Msg) :
    (received g m).newRequest = true ↔ g.newRequest = true ∨ NewAsk g m := by
  have key : (g.processTimeMessage m).1.newRequest = true ↔ g.newRequest = true ∨ NewAsk g m := by
    unfold processTimeMessage
    dsimp only
    split
    · rename_i h
      exact ⟨fun _ => Or.inr (processBase_res_new h), fun _ => rfl⟩
    · rename_i h
      refine ⟨Or.inl, fun k => k.elim id ?_⟩
      rintro ⟨ha, d, h1, h2, h3, h4⟩
      exact absurd (processBase_res_new' ha h1 h2 h3 h4) h
  unfold received
  split
  all_goals first
    | exact key
    | (rename_i e
       refine ⟨Or.inl, fun k => k.elim id ?_⟩
       rintro ⟨ha, _⟩
       rw [e] at ha; cases ha)
    | (refine ⟨Or.inl, fun k => k.elim id ?_⟩
       rintro ⟨ha, _⟩
       simp_all)

theorem timingInfo_eq (w : Fwd) (m : Msg) (e : m.action = .timingInfo) :
    w.processDependencyUpdate m = { w with deps := (w.deps.updateTime m).1 } := by
  unfold Fwd.processDependencyUpdate Fwd.changeDeps
  rw [e]
  rfl

theorem received_frame (g : Glob) (m : Msg) (ht : Timing m) :
    (received g m).base.seq = g.base.seq ∧ (received g m).base.entered = g.base.entered ∧
    (received g m).base.executionMode = g.base.executionMode ∧ (received g m).base.self = g.base.self ∧
    (received g m).state = g.state ∧ (received g m).nextEvent = g.nextEvent := by
  have key : (g.processTimeMessage m).1.base.seq = g.base.seq ∧ (g.processTimeMessage m).1.base.entered = g.base.entered ∧
    (g.processTimeMessage m).1.base.executionMode = g.base.executionMode ∧ (g.processTimeMessage m).1.base.self = g.base.self ∧
    (g.processTimeMessage m).1.state = g.state ∧ (g.processTimeMessage m).1.nextEvent = g.nextEvent :=
    ⟨(processBase_frame _ _).1, (processBase_frame _ _).2.1, (processBase_frame _ _).2.2.1, (processBase_frame _ _).2.2.2, rfl, rfl⟩
  obtain ⟨t1, t2, t3, t4, t5, t6⟩ := ht
  unfold received
  split
  all_goals first
    | exact key
    | contradiction
    | exact ⟨rfl, rfl, rfl, rfl, rfl, rfl⟩
    | (rename_i e
       rw [timingInfo_eq _ _ e]
       exact ⟨rfl, rfl, rfl, rfl, rfl, rfl⟩)

theorem received_out (g : Glob) (m : Msg) (ht : Timing m) :
    ∃ ps, (received g m).base.out = g.base.out ++ ps ∧ ∀ p ∈ ps, Complaint p := by
  obtain ⟨t1, t2, t3, t4, t5, t6⟩ := ht
  unfold received
  split
  all_goals first
    | exact processBase_out _ _
    | contradiction
    | (rename_i e
       rw [timingInfo_eq _ _ e]
       exact ⟨[], by simp, fun p hp => by cases hp⟩)
    | exact ⟨[], by simp, fun p hp => by cases hp⟩

/-- the entry `x` of the new table comes from the entry `d` of the old one -/
def From (m : Msg) (d x : DepInfo) : Prop :=
  x = d ∨ (d.fedID = m.source ∧ ∃ b, x = { d with dependent := b } ∨ x = (DepInfo.process m { d with dependent := b }).1)

theorem received_deps (g : Glob) (m : Msg) (ht : Timing m) {x : DepInfo} (hx : x ∈ (received g m).base.deps) :
    ∃ d ∈ g.base.deps, From m d x := by
  have key : ∀ ds, x ∈ (Deps.updateTime (preTable ds m) m).1 → ∃ d ∈ ds, From m d x := by
    intro ds h
    rcases mem_updateTime h with h | ⟨e, h1, h2, h3⟩
    · obtain ⟨d, hd, rfl | ⟨h1, h2⟩⟩ := mem_preTable h
      · exact ⟨x, hd, Or.inl rfl⟩
      · exact ⟨d, hd, Or.inr ⟨h1, false, Or.inl h2⟩⟩
    · obtain ⟨d, hd, rfl | ⟨h4, h5⟩⟩ := mem_preTable h1
      · exact ⟨e, hd, Or.inr ⟨h2, e.dependent, Or.inr h3⟩⟩
      · subst h5
        exact ⟨d, hd, Or.inr ⟨h4, false, Or.inr h3⟩⟩
  have key2 : ∀ ds, x ∈ (Deps.updateTime ds m).1 → ∃ d ∈ ds, From m d x := by
    intro ds h
    rcases mem_updateTime h with h | ⟨e, h1, h2, h3⟩
    · exact ⟨x, h, Or.inl rfl⟩
    · exact ⟨e, h1, Or.inr ⟨h2, e.dependent, Or.inr h3⟩⟩
  obtain ⟨t1, t2, t3, t4, t5, t6⟩ := ht
  unfold received at hx
  split at hx
  all_goals first
    | (apply key
       rw [← (processBase_deps g.base m).1]
       exact hx)
    | contradiction
    | exact ⟨x, hx, Or.inl rfl⟩
    | (rename_i e
       rw [timingInfo_eq _ _ e] at hx
       exact key2 _ hx)

theorem process_rsc (m : Msg) (d : DepInfo) :
    (d.process m).1.responseSequenceCounter = d.responseSequenceCounter ∨ (d.process m).1.responseSequenceCounter = 0 ∨
    ((m.action = .timeRequest ∨ m.action = .execRequest) ∧
      (d.connection = .self ∨ (d.process m).1.responseSequenceCounter = m.extraDestData)) := by
  unfold DepInfo.process
  split
  case h_1 e =>
    refine Or.inr (Or.inr ⟨Or.inr e, ?_⟩)
    dsimp only
    split
    · left; assumption
    · right; rfl
  case h_3 e =>
    refine Or.inr (Or.inr ⟨Or.inl e, ?_⟩)
    dsimp only
    split
    · left; assumption
    · right; rfl
  case h_2 e =>
    split <;> exact Or.inr (Or.inl rfl)
  all_goals exact Or.inl rfl

theorem From.facts {m : Msg} {d x : DepInfo} (h : From m d x) :
    x.fedID = d.fedID ∧ x.connection = d.connection ∧ x.dependency = d.dependency := by
  rcases h with rfl | ⟨_, b, rfl | rfl⟩
  · exact ⟨rfl, rfl, rfl⟩
  · exact ⟨rfl, rfl, rfl⟩
  · exact ⟨Deps.process_fedID _ _, (Deps.process_flags _ _).2.2, (Deps.process_flags _ _).1⟩

theorem From.rsc {m : Msg} {d x : DepInfo} (h : From m d x) :
    x.responseSequenceCounter = d.responseSequenceCounter ∨ x.responseSequenceCounter = 0 ∨
    (m.source = x.fedID ∧ (m.action = .timeRequest ∨ m.action = .execRequest) ∧
      (x.connection = .self ∨ x.responseSequenceCounter = m.extraDestData)) := by
  have f := h.facts
  rcases h with rfl | ⟨hs, b, rfl | rfl⟩
  · exact Or.inl rfl
  · exact Or.inl rfl
  · rcases process_rsc m { d with dependent := b } with h | h | ⟨h1, h2⟩
    · exact Or.inl h
    · exact Or.inr (Or.inl h)
    · refine Or.inr (Or.inr ⟨hs.symm.trans f.1.symm, h1, ?_⟩)
      rcases h2 with h2 | h2
      · exact Or.inl (f.2.1.trans h2)
      · exact Or.inr h2

/-! ## What the decision does -/

theorem poll_frame (g : Glob) (t : Time) :
    (g.poll t).base.seq = incSeq g.base.seq ∧ (g.poll t).base.entered = g.base.entered ∧
    (g.poll t).base.executionMode = g.base.executionMode ∧ (g.poll t).base.self = g.base.self ∧
    (g.poll t).state = g.state ∧ (g.poll t).nextEvent = g.nextEvent ∧ (g.poll t).newRequest = false := by
  unfold poll sendTimeUpdateRequest
  exact ⟨normSeq_incSeq _, rfl, rfl, rfl, rfl, rfl, rfl⟩

/-- the decision taken by `updateTimeFactors` of a started broker: nothing, a round of questions, or an announcement -/
inductive Decision (g : Glob) : Glob → Prop
  | running (ts : Time) (hs : g.stream.state = .granted) :
      Decision g { g with state := .granted, minTime := ts, nextEvent := ts }
  | idle (h : (g.stream.state ≠ .granted ∧ ¬ (g.stream.state = .timeReq ∨ g.stream.state = .timeReqIter ∨
        g.stream.state = .timeReqRequireIter)) ∨ (g.state ≠ .granted ∧ g.state ≠ .timeReq) ∨
      (g.state = .timeReq ∧ g.base.deps.verifySeq (trigTime g.nextEvent) g.base.seq = false)) : Decision g g
  | ask (ts e : Time) (hs : g.state = .granted ∨ g.state = .timeReq)
      (hm : e = maxVal ∨ ∃ d ∈ g.base.deps, d.Te = e) :
      Decision g (poll { g with state := .timeReq, minTime := ts, nextEvent := e } (trigTime e))
  | tell (ts e : Time) (hs : g.state = .timeReq)
      (hv : g.base.deps.verifySeq (trigTime e) g.base.seq = true)
      (ht : ∀ d ∈ g.base.deps, (d.nonGranting = true ∧ d.triggered = false) ∨ e ≤ d.Te)
      (hn : g.newRequest = false) (hm : e = maxVal ∨ ∃ d ∈ g.base.deps, d.Te = e) :
      Decision g { announce g (trigTime e) with state := .granted, minTime := ts, nextEvent := ts }

theorem checkForTriggered_spec (ds : Deps) (t : Time) : ∀ acc : Bool × Time,
    let r := ds.foldl (fun (acc : Bool × Time) d =>
      if d.next > t then (acc.1, if d.Te < acc.2 then d.Te else acc.2)
      else if d.nonGranting then (acc.1 || d.triggered, acc.2)
      else (acc.1, if d.Te < acc.2 then d.Te else acc.2)) acc
    r.2 ≤ acc.2 ∧ (acc.1 = true → r.1 = true) ∧
    ∀ d ∈ ds, (d.nonGranting = true ∧ (d.triggered = true → r.1 = true)) ∨ r.2 ≤ d.Te := by
  induction ds with
  | nil => intro acc; exact ⟨Int.le_refl _, id, fun d hd => by cases hd⟩
  | cons d ds ih =>
    intro acc
    simp only [List.foldl_cons]
    have h := ih (if d.next > t then (acc.1, if d.Te < acc.2 then d.Te else acc.2)
      else if d.nonGranting then (acc.1 || d.triggered, acc.2)
      else (acc.1, if d.Te < acc.2 then d.Te else acc.2))
    dsimp only at h
    obtain ⟨h1, h2, h3⟩ := h
    refine ⟨Int.le_trans h1 ?_, fun k => h2 ?_, fun x hx => ?_⟩
    · split
      · dsimp only; split <;> omega
      · split
        · exact Int.le_refl _
        · dsimp only; split <;> omega
    · split
      · exact k
      · split
        · simp [k]
        · exact k
    · rcases List.mem_cons.1 hx with rfl | hx
      · by_cases a : x.next > t
        · right
          refine Int.le_trans h1 ?_
          rw [if_pos a]; dsimp only; split <;> omega
        · by_cases b : x.nonGranting = true
          · left
            refine ⟨b, fun k => h2 ?_⟩
            rw [if_neg a, if_pos b]; simp [k]
          · right
            refine Int.le_trans h1 ?_
            rw [if_neg a, if_neg b]; dsimp only; split <;> omega
      · exact h3 x hx

theorem findNextTriggerEvent_mem (ds : Deps) : findNextTriggerEvent ds = maxVal ∨ ∃ d ∈ ds, d.Te = findNextTriggerEvent ds := by
  have key : ∀ (ds : Deps) (t : Time), ds.foldl (fun m d => if d.nonGranting then m else if d.Te < m then d.Te else m) t = t ∨
      ∃ d ∈ ds, d.Te = ds.foldl (fun m d => if d.nonGranting then m else if d.Te < m then d.Te else m) t := by
    intro ds
    induction ds with
    | nil => intro t; exact Or.inl rfl
    | cons d ds ih =>
      intro t
      rw [List.foldl_cons]
      rcases ih (if d.nonGranting then t else if d.Te < t then d.Te else t) with h | ⟨x, hx, h⟩
      · rw [h]
        split
        · exact Or.inl rfl
        · split
          · exact Or.inr ⟨d, by simp, rfl⟩
          · exact Or.inl rfl
      · exact Or.inr ⟨x, by simp [hx], h⟩
  exact key ds maxVal

theorem checkForTriggered_mem (ds : Deps) (t : Time) :
    (checkForTriggered ds t).2 = maxVal ∨ ∃ d ∈ ds, d.Te = (checkForTriggered ds t).2 := by
  have key : ∀ (ds : Deps) (acc : Bool × Time),
      let r := ds.foldl (fun (acc : Bool × Time) d =>
        if d.next > t then (acc.1, if d.Te < acc.2 then d.Te else acc.2)
        else if d.nonGranting then (acc.1 || d.triggered, acc.2)
        else (acc.1, if d.Te < acc.2 then d.Te else acc.2)) acc
      r.2 = acc.2 ∨ ∃ d ∈ ds, d.Te = r.2 := by
    intro ds
    induction ds with
    | nil => intro acc; exact Or.inl rfl
    | cons d ds ih =>
      intro acc
      simp only [List.foldl_cons]
      have h := ih (if d.next > t then (acc.1, if d.Te < acc.2 then d.Te else acc.2)
        else if d.nonGranting then (acc.1 || d.triggered, acc.2)
        else (acc.1, if d.Te < acc.2 then d.Te else acc.2))
      dsimp only at h
      rcases h with h | ⟨x, hx, h⟩
      · rw [h]
        split
        · dsimp only
          split
          · exact Or.inr ⟨d, by simp, rfl⟩
          · exact Or.inl rfl
        · split
          · exact Or.inl rfl
          · dsimp only
            split
            · exact Or.inr ⟨d, by simp, rfl⟩
            · exact Or.inl rfl
      · exact Or.inr ⟨x, by simp [hx], h⟩
  exact key ds (false, maxVal)

theorem verifySeq_anti {ds : Deps} {a b : Time} {n : Int} (h : a ≤ b) (hv : ds.verifySeq b n = true) :
    ds.verifySeq a n = true := by
  unfold Deps.verifySeq at hv ⊢
  rw [List.all_eq_true] at hv ⊢
  intro d hd
  have := hv d hd
  unfold Deps.checkSeq at this ⊢
  simp only [Bool.or_eq_true, decide_eq_true_eq] at this ⊢
  rcases this with ((((k | k) | k) | k) | k) | k
  · exact Or.inl (Or.inl (Or.inl (Or.inl (Or.inl k))))
  · exact Or.inl (Or.inl (Or.inl (Or.inl (Or.inr k))))
  · exact Or.inl (Or.inl (Or.inl (Or.inr k)))
  · exact Or.inl (Or.inl (Or.inr (by omega)))
  · exact Or.inl (Or.inr k)
  · exact Or.inr k

theorem decide_spec (g : Glob) (hx : g.base.executionMode = true) : Decision g g.updateTimeFactors := by
  unfold updateTimeFactors
  simp only [hx, Bool.true_eq_false, false_and, if_false]
  split
  · rename_i hs; exact .running _ hs
  · rename_i hs
    split
    · split
      · rename_i hg
        exact .ask _ _ (Or.inl hg) (findNextTriggerEvent_mem _)
      · rename_i hg
        split
        · rename_i ht
          unfold collect
          dsimp only
          split
          · rename_i hv
            have sp := checkForTriggered_spec g.base.deps (trigTime g.nextEvent) (false, maxVal)
            dsimp only at sp
            obtain ⟨_, _, sp⟩ := sp
            split
            · have := Decision.ask (g := g) g.minTime (checkForTriggered g.base.deps (trigTime g.nextEvent)).2 (Or.inr ht) (checkForTriggered_mem _ _)
              rw [show ({ g with nextEvent := (checkForTriggered g.base.deps (trigTime g.nextEvent)).2 } : Glob) =
                { g with state := .timeReq, minTime := g.minTime, nextEvent := (checkForTriggered g.base.deps (trigTime g.nextEvent)).2 } by
                  rw [← ht]]
              exact this
            · rename_i hc
              simp only [Bool.or_eq_true, Bool.not_eq_true', not_or, Bool.not_eq_true, Bool.not_eq_false, decide_eq_true_eq] at hc
              obtain ⟨⟨c1, c2⟩, c3⟩ := hc
              refine Decision.tell (g := g) _ (checkForTriggered g.base.deps (trigTime g.nextEvent)).2 ht ?_ ?_ c3 (checkForTriggered_mem _ _)
              · rcases c2 with c2 | c2
                · exact verifySeq_anti (trigTime_mono c2) hv
                · exact c2
              · intro d hd
                rcases sp d hd with ⟨k1, k2⟩ | k
                · left
                  refine ⟨k1, ?_⟩
                  cases hq : d.triggered
                  · rfl
                  · exact absurd (k2 hq) (by
                      have : (checkForTriggered g.base.deps (trigTime g.nextEvent)).1 = false := c1
                      unfold checkForTriggered at this
                      rw [this]; exact fun e => by cases e)
                · exact Or.inr k
          · rename_i hv
            exact .idle (Or.inr (Or.inr ⟨ht, by simpa using hv⟩))
        · rename_i ht
          exact .idle (Or.inr (Or.inl ⟨hg, ht⟩))
    · rename_i hr
      exact .idle (Or.inl ⟨hs, hr⟩)

end Glob
end Verif
