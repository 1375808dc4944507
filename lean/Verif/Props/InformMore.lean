import Verif.Props.Inform
/-!
# C51: more about what cores and brokers tell their neighbours

Entering executing mode only when everybody has asked or answered, what the announcements say about events, and round numbers.
-/
namespace Verif
namespace Fwd
open Deps

theorem normSeq_le (c : Int) : normSeq c ≤ 32767 := by unfold normSeq; split <;> omega

private theorem utf_seq (w : Fwd) : w.updateTimeFactors.seq ≤ 32767 := by
  have h1 : ∀ a : Fwd, a.tellUp.seq = a.seq ∧ a.tellDown.seq = a.seq := by
    intro a
    unfold tellUp tellDown sendExcluding transmitUp transmitDown send
    dsimp only
    refine ⟨?_, ?_⟩
    · split <;> rfl
    · split
      · split <;> rfl
      · split <;> rfl
  have h0 : w.refresh.1.seq ≤ 32767 := normSeq_le _
  unfold updateTimeFactors
  dsimp only
  generalize w.refresh = r at h0
  obtain ⟨v, u, d⟩ := r
  dsimp only at h0 ⊢
  have h2 : (if (u || d) = true then v.tellUp else v).seq ≤ 32767 := by
    split
    · rw [(h1 v).1]; exact h0
    · exact h0
  generalize (if (u || d) = true then v.tellUp else v) = b at h2
  split
  · rw [(h1 b).2]; exact h2
  · split <;> exact h2

private theorem ptm_seq (w : Fwd) (cmd : Msg) (h : w.seq ≤ 32767) : (w.processTimeMessage cmd).1.seq ≤ 32767 := by
  have hb : (w.processBase cmd).1.seq = w.seq := by
    have key : ∀ a : Fwd, a.seq = w.seq → (if (a.deps.updateTime cmd).2 = .processedAndCheck then
        ({ a with deps := (a.deps.updateTime cmd).1 } : Fwd).checkIssues else { a with deps := (a.deps.updateTime cmd).1 }).seq = w.seq := by
      intro a ha
      unfold checkIssues send
      dsimp only
      split
      · split <;> exact ha
      · exact ha
    unfold processBase
    dsimp only
    apply key
    split <;> rfl
  unfold processTimeMessage
  dsimp only
  split
  · exact normSeq_le _
  · rw [hb]; exact h

private theorem disc_seq (w : Fwd) (h : w.seq ≤ 32767) : w.disconnect.seq ≤ 32767 := by
  unfold disconnect
  split
  · exact h
  · dsimp only
    split
    · exact h
    · dsimp only
      split
      · split
        · exact ptm_seq _ _ h
        · exact h
      · exact h
    · dsimp only
      split
      · exact ptm_seq _ _ h
      · exact h

private theorem try_seq (w : Fwd) (o : Bool) (h : w.seq ≤ 32767) : (w.tryEnter o).seq ≤ 32767 := by
  unfold tryEnter checkExecEntry
  dsimp only
  by_cases hm : w.mayEnter = true
  · rw [if_pos hm]; exact h
  · rw [if_neg hm]
    simp only [Bool.false_eq_true, if_false]
    split
    · exact utf_seq _
    · exact h

private theorem dep_seq (w : Fwd) (cmd : Msg) (h : w.seq ≤ 32767) : (w.processDependencyUpdate cmd).seq ≤ 32767 := by
  have h1 : (w.changeDeps cmd).1.seq = w.seq := by
    unfold changeDeps
    split <;> rfl
  have h2 : ∀ a : Fwd, (a.relate cmd).seq = a.seq := by
    intro a
    have c1 : ∀ b : Fwd, (if cmd.child then b.setAsChild cmd.source else b).seq = b.seq := by
      intro b; unfold setAsChild; split
      · split <;> rfl
      · rfl
    have c2 : ∀ b : Fwd, (if cmd.parent then b.setAsParent cmd.source else b).seq = b.seq := by
      intro b; unfold setAsParent; split
      · split
        · rfl
        · split <;> rfl
      · rfl
    unfold relate
    dsimp only
    split
    · exact (c2 _).trans (c1 a)
    · exact (c2 _).trans (c1 a)
  unfold processDependencyUpdate
  dsimp only
  split
  · rw [h2, h1]; exact h
  · rw [h1]; exact h

/-- What handling a command comes to. -/
theorem handle_cases (w : Fwd) (cmd : Msg) : w.handle cmd = w ∨ w.handle cmd = (w.processTimeMessage cmd).1 ∨ (∃ o, w.entered = false ∧ w.handle cmd = (w.processTimeMessage cmd).1.tryEnter o) ∨
    (w.entered = true ∧ w.handle cmd = (w.processTimeMessage cmd).1.updateTimeFactors) ∨ w.handle cmd = w.processDependencyUpdate cmd := by
  have he := (keeps_processTimeMessage w cmd).entered
  unfold handle handleCore handleBroker
  generalize w.processTimeMessage cmd = r at *
  obtain ⟨v, x⟩ := r
  dsimp only at he ⊢
  rw [he]
  generalize w.processDependencyUpdate cmd = q
  generalize v.updateTimeFactors = u
  generalize hyp1 : v.tryEnter true = t1
  generalize hyp2 : v.tryEnter false = t2
  cases w.core <;> cases hent : w.entered <;> cases w.operating <;> by_cases hx : x = TPR.notProcessed <;> cases cmd.action <;>
    simp [hx, ← hyp1, ← hyp2]

private theorem handle_seq (w : Fwd) (cmd : Msg) (h : w.seq ≤ 32767) : (w.handle cmd).seq ≤ 32767 := by
  have hp := ptm_seq w cmd h
  rcases handle_cases w cmd with e | e | ⟨o, _, e⟩ | ⟨_, e⟩ | e <;> rw [e]
  · exact h
  · exact hp
  · exact try_seq _ _ hp
  · exact utf_seq _
  · exact dep_seq _ _ h

private theorem start_seq (w : Fwd) (h : w.seq ≤ 32767) : w.start.seq ≤ 32767 := by
  have h1 : ∀ a : Fwd, a.seq ≤ 32767 → a.enteringExecMode.seq ≤ 32767 := by
    intro a ha
    have hc : ∀ b : Fwd, b.checkIssues.seq = b.seq := by
      intro b; unfold checkIssues send; dsimp only; split <;> rfl
    have h2 : (if ({ a with checkingExec := true } : Fwd).deps = [] then ({ a with checkingExec := true } : Fwd) else
        ({ a with checkingExec := true } : Fwd).updateTimeFactors.checkIssues).seq ≤ 32767 := by
      split
      · exact ha
      · rw [hc]; exact utf_seq _
    unfold enteringExecMode
    split
    · exact ha
    · dsimp only at h2 ⊢
      generalize (if a.deps = [] then _ else _ : Fwd) = b at h2 ⊢
      split
      · exact h2
      · exact h2
  unfold start
  dsimp only
  split
  · exact disc_seq _ (try_seq _ _ (h1 _ h))
  · exact try_seq _ _ (h1 _ h)

/-- **C51 (round numbers).** The number that tells one round of requests from the next stays within its sixteen bits, however long the simulation. -/
theorem C51_round_numbers (self : FedId) (core restrictive : Bool) (wiring : List Msg) (evs : List Event) : (life self core restrictive wiring evs).seq ≤ 32767 := by
  have hw : ∀ (l : List Msg) (w : Fwd), w.seq ≤ 32767 → (l.foldl handle w).seq ≤ 32767 := by
    intro l
    induction l with
    | nil => exact fun w h => h
    | cons m l ih => exact fun w h => ih _ (handle_seq w m h)
  have he : ∀ (l : List Event) (w : Fwd), w.seq ≤ 32767 → (l.foldl occur w).seq ≤ 32767 := by
    intro l
    induction l with
    | nil => exact fun w h => h
    | cons e l ih =>
      intro w h
      refine ih _ ?_
      cases e with
      | cmd m => exact handle_seq w m h
      | leave => exact disc_seq w h
  exact he _ _ (start_seq _ (hw _ _ (by simp)))

/-- The dependency has asked to enter executing mode (a federate's dependency on itself aside), or it has answered the current round of an iteration that this coordinator has caused. -/
def AskedOrAnswered (w : Fwd) (d : DepInfo) : Prop :=
  TimeState.execReq.rank ≤ d.state.rank ∨ d.connection = .self ∨
  (d.minFed = w.self ∧ d.responseSequenceCounter = w.downstream.sequenceCounter)

private theorem tryEnter_only (w : Fwd) (o : Bool) (h0 : w.entered = false) (h : (w.tryEnter o).entered = true) :
    ∀ d ∈ (w.tryEnter o).deps, d.dependency = true → AskedOrAnswered (w.tryEnter o) d := by
  have hm : w.mayEnter = true := by
    cases hm : w.mayEnter
    · exfalso
      unfold tryEnter checkExecEntry at h
      rw [hm] at h
      simp only [Bool.false_eq_true, if_false] at h
      have hk := (keeps_updateTimeFactors w).entered
      cases o
      · simp [h0] at h
      · simp [hk, h0] at h
    · rfl
  have e : w.tryEnter o = { w.checkExecEntry.1 with entered := true } := by
    unfold tryEnter checkExecEntry
    rw [if_pos hm]
    rfl
  have hd : w.checkExecEntry.1.deps = w.deps ∧ w.checkExecEntry.1.self = w.self ∧ w.checkExecEntry.1.downstream.sequenceCounter = w.downstream.sequenceCounter ∧
      w.checkExecEntry.1.downstream.state = .granted := by
    unfold checkExecEntry
    rw [if_pos hm]
    exact ⟨rfl, rfl, rfl, rfl⟩
  rw [e]
  intro d hdm hdep
  change d ∈ w.checkExecEntry.1.deps at hdm
  rw [hd.1] at hdm
  unfold AskedOrAnswered
  dsimp only
  rw [hd.2.1, hd.2.2.1]
  unfold mayEnter at hm
  rw [Bool.or_eq_true] at hm
  rcases hm with hm | hm
  · unfold readyForExecEntry at hm
    simp only [Bool.false_eq_true, if_false, List.all_eq_true] at hm
    have := hm d hdm
    simp [hdep] at this
    rcases this with h | h
    · exact .inl h
    · exact .inr (.inl h.1)
  · rw [Bool.and_eq_true, List.all_eq_true] at hm
    have := hm.2 d hdm
    simp [hdep] at this
    rcases this with h | h
    · exact .inl h
    · exact .inr (.inr ⟨h.1, h.2⟩)

/-- **C51 (entering, only when).** A core or broker enters executing mode only when every dependency has asked for it, or has answered the current round of an iteration. -/
theorem C51_enters_only (w : Fwd) (cmd : Msg) (h0 : w.entered = false) (h : (w.handle cmd).entered = true) :
    ∀ d ∈ (w.handle cmd).deps, d.dependency = true → AskedOrAnswered (w.handle cmd) d := by
  have he := (keeps_processTimeMessage w cmd).entered.trans h0
  have ht := fun o => tryEnter_only (w.processTimeMessage cmd).1 o he
  have hdep : (w.processDependencyUpdate cmd).entered = false := by
    have h1 : (w.changeDeps cmd).1.entered = w.entered := by unfold changeDeps; split <;> rfl
    have h2 : ∀ a : Fwd, (a.relate cmd).entered = a.entered := by
      intro a
      have c1 : ∀ b : Fwd, (if cmd.child then b.setAsChild cmd.source else b).entered = b.entered := by
        intro b; unfold setAsChild; split
        · split <;> rfl
        · rfl
      have c2 : ∀ b : Fwd, (if cmd.parent then b.setAsParent cmd.source else b).entered = b.entered := by
        intro b; unfold setAsParent; split
        · split
          · rfl
          · split <;> rfl
        · rfl
      unfold relate
      dsimp only
      split
      · exact (c2 _).trans (c1 a)
      · exact (c2 _).trans (c1 a)
    unfold processDependencyUpdate
    dsimp only
    split
    · rw [h2, h1]; exact h0
    · rw [h1]; exact h0
  rcases handle_cases w cmd with e | e | ⟨o, _, e⟩ | ⟨h1, _⟩ | e
  · rw [e, h0] at h; cases h
  · rw [e, he] at h; cases h
  · rw [e] at h ⊢; exact ht o h
  · rw [h0] at h1; cases h1
  · rw [e, hdep] at h; cases h

/-- What a message to a child says about times: the next time of the view from above, and the earliest events of the views from above and from below. -/
def SaysEvents (m : Msg) (down up : TimeData) : Prop :=
  m.actionTime = down.next ∧ m.extraData = down.minFed ∧
  m.Te = (if up.state = .timeReq then min down.Te up.Te else down.Te) ∧
  m.Tdemin = min (if up.state = .timeReq then min down.minDe up.minDe else down.minDe) m.Te

private theorem request_fields (w : Fwd) (t : TimeData) (fed : FedId) (code : Int) (h : (w.request t fed code).action = .timeRequest) :
    Says (w.request t fed code) t ∧ (w.request t fed code).actionTime = t.next ∧ (w.request t fed code).extraData = t.minFed ∧ (w.request t fed code).Te = t.Te ∧
      (w.request t fed code).Tdemin = min t.minDe t.Te := by
  revert h
  unfold request TC.generateTimeRequest Says SaysTime
  cases hs : t.state <;> simp [setIterationFlags]
  all_goals (split <;> simp)

private theorem says_dest {m : Msg} {t : TimeData} (h : Says m t) (a : FedId) (b : Int) : Says { m with dest := a, extraDestData := b } t := by
  revert h; unfold Says SaysTime; cases t.state <;> exact id

private theorem utf_tells (w : Fwd) (hx : w.executionMode = true) (hd : w.hasDelayed = false) (hi : InTime w.aggUp) :
    ∃ new, w.updateTimeFactors.out = w.out ++ new ∧ ∀ m ∈ new.flatMap Packet.parts, m.action = .timeRequest →
      (∃ d ∈ w.deps, d.dependent = true ∧ d.connection ≠ .child ∧ m.dest = d.fedID ∧ Says m w.aggUp) ∨
      (∃ d ∈ w.deps, d.dependent = true ∧ d.connection = .child ∧ m.dest = d.fedID ∧ SaysEvents m w.aggDown w.aggUp) := by
  have hrank : w.aggUp.state.rank > TimeState.execReq.rank := by
    rcases hi with h | h | h | h <;> rw [h] <;> decide
  have hup : Same w.refresh.1.upstream w.aggUp := by
    rcases refresh_up w with ⟨g, _⟩ | ⟨_, _, _, g⟩
    · rw [g]; exact update_same _ _
    · exact absurd hrank g
  have hdn : w.refresh.2.2 = true → w.refresh.1.downstream = (if w.aggUp.state = .timeReq then { (w.downstream.update w.aggDown).1 with minDe := min w.aggDown.minDe w.aggUp.minDe, Te := min w.aggDown.Te w.aggUp.Te } else (w.downstream.update w.aggDown).1) := by
    unfold refresh
    dsimp only
    rw [if_pos (Or.inl hrank)]
    by_cases h : w.aggDown.state.rank > TimeState.execReq.rank ∨ w.executionMode = false
    · rw [if_pos h]; intro _; rfl
    · rw [if_neg h]; intro h; cases h
  have hdeps : w.refresh.1.deps = w.deps := rfl
  have hout : w.refresh.1.out = w.out := rfl
  have hdel : w.refresh.1.hasDelayed = false := hd
  unfold updateTimeFactors
  dsimp only
  generalize w.refresh = r at *
  obtain ⟨v, u, b⟩ := r
  dsimp only at hup hdn hdeps hout hdel ⊢
  -- what is told upstream
  have h1 : ∃ new, (if (u || b) = true then v.tellUp else v) = { v with out := v.out ++ new } ∧ ∀ m ∈ new.flatMap Packet.parts, m.action = .timeRequest →
      ∃ d ∈ w.deps, d.dependent = true ∧ d.connection ≠ .child ∧ m.dest = d.fedID ∧ Says m w.aggUp := by
    by_cases hub : (u || b) = true
    · rw [if_pos hub]
      unfold tellUp
      dsimp only
      split
      · refine ⟨_, rfl, ?_⟩
        intro m hm ha
        obtain ⟨p, hp, hm⟩ := List.mem_flatMap.mp hm
        obtain ⟨d, hdm, hdp⟩ := List.mem_filterMap.mp hp
        split at hdp
        · next hc =>
          cases hdp
          simp only [Packet.parts, List.mem_singleton] at hm
          rw [hdeps] at hdm
          refine ⟨d, hdm, hc.2, hc.1, ?_⟩
          have hreq : (v.request v.upstream invalidFed v.upstream.responseSequenceCounter).action = .timeRequest := by
            rw [hm] at ha; revert ha; split <;> exact id
          have hs := (request_fields v _ _ _ hreq).1.congr hup
          rw [if_pos (.inr hreq)] at hm
          rw [hm]
          exact ⟨rfl, says_dest hs _ _⟩
        · cases hdp
      · exact ⟨[], by simp, by simp⟩
    · rw [if_neg hub]; exact ⟨[], by simp, by simp⟩
  obtain ⟨new, e1, hn⟩ := h1
  rw [e1]
  cases b with
  | false =>
    rw [if_neg (by decide)]
    simp only [hdel, Bool.false_and, Bool.false_eq_true, if_false]
    exact ⟨new, by rw [hout], fun m hm ha => .inl (hn m hm ha)⟩
  | true =>
    rw [if_pos rfl]
    unfold tellDown
    dsimp only
    rw [if_neg (by rw [hdel]; simp)]
    split
    · refine ⟨new ++ downCopies v.deps (Fwd.request { v with out := v.out ++ new } v.downstream invalidFed 0) invalidFed, by simp [transmitDown, hout], ?_⟩
      intro m hm ha
      rw [List.flatMap_append, List.mem_append] at hm
      rcases hm with hm | hm
      · exact .inl (hn m hm ha)
      · refine .inr ?_
        generalize hq : (Fwd.request { v with out := v.out ++ new } v.downstream invalidFed 0) = q at hm
        obtain ⟨p, hp, hm⟩ := List.mem_flatMap.mp hm
        obtain ⟨d, hdm, hdp⟩ := List.mem_filterMap.mp hp
        rw [hdeps] at hdm
        have hreq : q.action = .timeRequest := by
          revert hdp
          split
          · split
            · intro hdp
              cases hdp
              simp only [Packet.parts, List.mem_singleton] at hm
              rw [hm] at ha; revert ha; split <;> exact id
            · intro h; cases h
          · split
            · intro hdp
              cases hdp
              simp only [Packet.parts, List.mem_singleton] at hm
              rw [hm] at ha; revert ha; split <;> exact id
            · intro h; cases h
        rw [if_pos (.inl hreq)] at hdp
        split at hdp
        · next hc =>
          cases hdp
          simp only [Packet.parts, List.mem_singleton] at hm
          refine ⟨d, hdm, hc.2.1, hc.1, by rw [hm], ?_⟩
          subst hq
          obtain ⟨_, f1, f2, f3, f4⟩ := request_fields _ _ _ _ hreq
          have hdn' := hdn rfl
          subst hm
          unfold SaysEvents
          dsimp only
          rw [f1, f2, f3, f4, hdn']
          split <;> exact ⟨rfl, rfl, rfl, rfl⟩
        · cases hdp
    · exact ⟨new, by rw [hout], fun m hm ha => .inl (hn m hm ha)⟩

private theorem ptm_tells (w : Fwd) (cmd : Msg) : ∃ new, (w.processTimeMessage cmd).1.out = w.out ++ new ∧ ∀ m ∈ new.flatMap Packet.parts, m.action ≠ .timeRequest := by
  have hb : ∃ new, (w.processBase cmd).1.out = w.out ++ new ∧ ∀ m ∈ new.flatMap Packet.parts, m.action ≠ .timeRequest := by
    have key : ∀ a : Fwd, a.out = w.out → ∃ new, (if (a.deps.updateTime cmd).2 = .processedAndCheck then
        ({ a with deps := (a.deps.updateTime cmd).1 } : Fwd).checkIssues else { a with deps := (a.deps.updateTime cmd).1 }).out = w.out ++ new ∧
        ∀ m ∈ new.flatMap Packet.parts, m.action ≠ .timeRequest := by
      intro a ha
      unfold checkIssues send
      dsimp only
      split
      · split
        · exact ⟨_, by rw [← ha], by simp [Packet.parts]⟩
        · exact ⟨[], by simp [ha], by simp⟩
      · exact ⟨[], by simp [ha], by simp⟩
    unfold processBase
    dsimp only
    apply key
    split <;> rfl
  unfold processTimeMessage
  dsimp only
  split <;> exact hb

/-- **C51 (nothing false).** Every time request that a core or broker in executing mode sends when it handles a command states its views of that moment: to neighbours that are not children the
combined view of everything below, to children the next time seen above and the earliest events seen above and, while everything below is waiting, below. -/
theorem C51_nothing_false (w : Fwd) (cmd : Msg) (he : w.entered = true) (hx : w.executionMode = true) (hw : wires cmd = false) :
    let w' := w.handle cmd
    w'.hasDelayed = false → ∃ code, InTime (w'.viewUp code) → ∃ new, w'.out = w.out ++ new ∧ ∀ m ∈ new.flatMap Packet.parts, m.action = .timeRequest →
      (∃ d ∈ w'.deps, d.dependent = true ∧ d.connection ≠ .child ∧ m.dest = d.fedID ∧ Says m (w'.viewUp code)) ∨
      (∃ d ∈ w'.deps, d.dependent = true ∧ d.connection = .child ∧ m.dest = d.fedID ∧ SaysEvents m (w'.viewDown (!w'.noParent) code) (w'.viewUp code)) := by
  intro w' hdel
  obtain ⟨n1, o1, h1⟩ := ptm_tells w cmd
  refine ⟨(w.processTimeMessage cmd).1.seq, ?_⟩
  intro hi
  have hk := keeps_processTimeMessage w cmd
  rcases handle_cases w cmd with e | e | ⟨o, h0, e⟩ | ⟨_, e⟩ | e
  · exact ⟨[], by simp only [w', e]; simp, by simp⟩
  · exact ⟨n1, by simp only [w', e]; exact o1, fun m hm ha => absurd ha (h1 m hm)⟩
  · rw [he] at h0; cases h0
  · have hu := keeps_updateTimeFactors (w.processTimeMessage cmd).1
    have ew : w' = (w.processTimeMessage cmd).1.updateTimeFactors := e
    generalize (w.processTimeMessage cmd).1 = P at *
    have hdeps : P.updateTimeFactors.deps = P.deps := (same_updateTimeFactors P).2
    have e1 : w'.viewUp P.seq = P.aggUp := by rw [ew]; unfold viewUp aggUp; rw [hdeps, hu.who, hu.restrictive]
    have e2 : w'.viewDown (!w'.noParent) P.seq = P.aggDown := by
      unfold viewDown aggDown
      rw [e1, ew]
      cases hn : P.noParent <;> simp [hu.noParent, hn, hdeps, hu.who, hu.restrictive]
    have hd : P.hasDelayed = false := hu.delayed (by rw [← ew]; exact hdel)
    obtain ⟨n2, o2, h2⟩ := utf_tells P (hk.exec.trans hx) hd (by rw [← e1]; exact hi)
    refine ⟨n1 ++ n2, by rw [ew, o2, o1, List.append_assoc], ?_⟩
    intro m hm ha
    rw [List.flatMap_append, List.mem_append] at hm
    rcases hm with hm | hm
    · exact absurd ha (h1 m hm)
    · have := h2 m hm ha
      rw [e1, e2, ew, hdeps]
      exact this
  · refine ⟨[], ?_, by simp⟩
    simp only [w', e, List.append_nil]
    unfold processDependencyUpdate changeDeps
    unfold wires at hw
    cases hc : cmd.action <;> rw [hc] at hw <;> first | (cases hw; done) | skip
    all_goals rfl

end Fwd
end Verif
