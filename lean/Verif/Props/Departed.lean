import Verif.Lemmas.Gone
import Verif.Props.ExecEntry
/-!
# C09: a federate that has left or failed delays nobody
-/
namespace Verif
namespace Departed
open Fed TC Deps Grants Causal ExecEntry

/-- The command tells that its sender has left or failed. -/
def farewell (m : Msg) : Prop :=
  m.action = .disconnect ∨ m.action = .disconnectFed ∨ m.action = .broadcastDisconnect ∨ m.action = .disconnectCore ∨
  m.action = .disconnectBroker ∨ m.action = .localError

theorem lasting_gone (g : FedId) : Lasting g Gone where
  robust :=
    { off := fun _ h => h
      on := fun _ h => h
      iterExec := fun d h hr => by
        rcases h.1 with e | e <;> rw [e] at hr <;> exact absurd hr (by decide)
      iterTime := fun d h hs => by
        rcases h.1 with e | e <;> rw [e] at hs <;> cases hs }
  silent cmd d hw hq hd := by
    obtain ⟨h1, h2, h3, h4, h5⟩ := hd
    refine ⟨?_, ?_, ?_, ?_, by rw [process_conn]; exact h5⟩
    all_goals
      unfold word at hw
      unfold DepInfo.process
      split <;> rename_i ha <;> simp only [ha] at hw
      all_goals (first | (cases hw; done) | assumption | (split at hw <;> cases hw))

theorem process_farewell (m : Msg) (d : DepInfo) (hm : farewell m) (hc : d.connection ≠ .self) : Gone (d.process m).1 := by
  refine ⟨?_, ?_, ?_, ?_, by rw [process_conn]; exact hc⟩
  all_goals
    unfold DepInfo.process
    rcases hm with e | e | e | e | e | e <;> rw [e] <;> simp

/-! ### One decision with and without the entry -/

/-- the check of a pending time request -/
theorem process_check (f : Fed) (cmd : Msg) (ha : cmd.action = .timeCheck) (hs : f.state = .executing) (hm : f.mode = false) :
    f.process cmd = ({ f with tc := (f.tc.checkTimeGrant invalidFed).1, mode := (f.tc.checkTimeGrant invalidFed).2.returnable },
      (f.tc.checkTimeGrant invalidFed).2) := by
  have ho := checkTimeGrant_outcome f.tc invalidFed
  have h4 : (f.tc.checkTimeGrant invalidFed).2 = .halted ∨ (f.tc.checkTimeGrant invalidFed).2 = .continueProcessing ∨
      (f.tc.checkTimeGrant invalidFed).2 = .nextStep ∨ (f.tc.checkTimeGrant invalidFed).2 = .iterating := by
    rcases ho with ⟨h, _, _, _⟩ | ⟨h, _⟩ | ⟨h, _, _, _, _, _⟩ | ⟨h, _, _, _, _, _⟩ <;> simp [h]
  unfold process processN coordinator
  simp only [ha, hs, ne_eq, not_true_eq_false, if_false]
  unfold tryGrant
  simp only [hm, Bool.not_false, if_true, Bool.false_or]
  unfold stateChange
  simp only [hs, if_true, Bool.false_eq_true, if_false]
  rcases h4 with h | h | h | h <;> rw [h] <;> simp only
  unfold secondSwitch
  simp only [ha]

theorem grant_core {t u : TC} (hal : Alike t u) (g : FedId) (he : (t.checkTimeGrant g).2 = (u.checkTimeGrant g).2) :
    (t.checkTimeGrant g).1.core = (u.checkTimeGrant g).1.core := by
  have hi : t.iterating = u.iterating := congrArg Core.iterating hal.core
  have hn : t.iteration = u.iteration := congrArg Core.iteration hal.core
  have hx := hal.nextExec
  rcases checkTimeGrant_outcome t g with ⟨h, _, _, c⟩ | ⟨h, c⟩ | ⟨h, _, _, _, _, c⟩ | ⟨h, _, _, _, _, c⟩ <;>
  rcases checkTimeGrant_outcome u g with ⟨h', _, _, c'⟩ | ⟨h', c'⟩ | ⟨h', _, _, _, _, c'⟩ | ⟨h', _, _, _, _, c'⟩ <;>
  rw [h, h'] at he <;> first | (cases he; done) | (rw [c, c', hal.core]; done) | skip
  · rw [c, c', hal.core, hx]
  · rw [c, c', hal.core, hx, hi, hn]

/-- The federate with another table. -/
def withTable (u : Fed) (ds : Deps) : Fed := { u with tc := { u.tc with deps := ds } }

theorem check_without (f v : Fed) (cmd cmd' : Msg) (a b : Deps) (d : DepInfo) (hd : Gone d) (ha : cmd.action = .timeCheck)
    (ha' : cmd'.action = .timeCheck) (hs : f.state = .executing) (hm : f.mode = false) (hs' : v.state = .executing)
    (hm' : v.mode = false) (hal : Alike f.tc v.tc) (ht : f.tc.deps = a ++ d :: b) (ht' : v.tc.deps = a ++ b) :
    (f.process cmd).2 = (v.process cmd').2 ∧ returned (f.process cmd) = returned (v.process cmd') := by
  rw [process_check f cmd ha hs hm, process_check v cmd' ha' hs' hm']
  have he := grant_without f.tc v.tc a b d hd hal ht ht' invalidFed
  refine ⟨he, ?_⟩
  have hc := congrArg Core.granted (grant_core hal invalidFed he)
  unfold returned
  simp only [hs, hs', if_true]
  rw [he]
  split <;> first | rfl | exact congrArg some hc

theorem timeRequest_rest (tc : TC) (t : Time) (it : IterReq) (nv nm : Time) :
    (tc.timeRequest t it nv nm).seq = tc.seq + 1 ∧ (tc.timeRequest t it nv nm).restrictionLevel = tc.restrictionLevel ∧
    (tc.timeRequest t it nv nm).deps = tc.deps.resetEvents tc.granted := by
  unfold timeRequest
  simp only
  split
  · exact ⟨rfl, rfl, rfl⟩
  · obtain ⟨o, l, u, h⟩ := sendTimeRequest_frame (tc.prepRequest t it nv nm).updateTimeFactors invalidFed
    rw [h]
    exact ⟨rfl, rfl, rfl⟩

theorem prep_core {t u : TC} (hal : Alike t u) (x : Time) (it : IterReq) (nv nm : Time) :
    (t.prepRequest x it nv nm).core = (u.prepRequest x it nv nm).core := by
  have c := hal.core
  unfold core at c ⊢
  injection c with h1 h2 h3 h4 h5 h6 h7 h8 h9 h10 h11 h12 h13 h14 h15
  unfold prepRequest getNextPossibleTime generateAllowedTime
  simp only [h1, h2, h5, h8, h9, h10, h11, h12, h13, h14, h15]
  cases it <;> rfl

theorem alike_timeRequest {t u : TC} (hal : Alike t u) (x : Time) (it : IterReq) (nv nm : Time) :
    Alike (t.timeRequest x it nv nm) (u.timeRequest x it nv nm) := by
  obtain ⟨a1, a2, a3⟩ := timeRequest_rest t x it nv nm
  obtain ⟨b1, b2, b3⟩ := timeRequest_rest u x it nv nm
  exact ⟨(timeRequest_core t x it nv nm).1.trans ((prep_core hal x it nv nm).trans (timeRequest_core u x it nv nm).1.symm),
    (timeRequest_core t x it nv nm).2.trans (hal.blocks.trans (timeRequest_core u x it nv nm).2.symm),
    by rw [a1, b1, hal.seq], by rw [a2, b2, hal.level]⟩

/-- the check of a pending request to enter executing mode -/
theorem processN_entry (n : Nat) (f : Fed) (cmd : Msg) (ha : cmd.action = .execCheck) (hs : f.state = .initializing)
    (hm : f.mode = false) :
    (processN (n + 1) f cmd).2 = (f.tc.checkExecEntry invalidFed).2 ∧
    (processN (n + 1) f cmd).1.state =
      if (f.tc.checkExecEntry invalidFed).2 = .nextStep then .executing else .initializing := by
  have h3 := checkExecEntry_result f.tc invalidFed
  unfold processN coordinator
  simp only [ha]
  unfold execCheck
  simp only [ha, hs, hm, ne_eq, not_true_eq_false, if_false, Bool.not_false, if_true, reduceCtorEq, false_and]
  rcases h3 with h | h | h <;> rw [h] <;> simp only
  · unfold stateChange
    simp
  · unfold stateChange
    simp
  · unfold stateChange
    simp only [if_true, Bool.false_eq_true, if_false]
    unfold secondSwitch
    simp [ha]

theorem entry_step_without (n n' : Nat) (f v : Fed) (cmd cmd' : Msg) (a b : Deps) (d : DepInfo) (hd : Gone d) (ha : cmd.action = .execCheck)
    (ha' : cmd'.action = .execCheck) (hs : f.state = .initializing) (hm : f.mode = false) (hs' : v.state = .initializing)
    (hm' : v.mode = false) (hal : Alike f.tc v.tc) (ht : f.tc.deps = a ++ d :: b) (ht' : v.tc.deps = a ++ b) :
    (processN (n + 1) f cmd).2 = (processN (n' + 1) v cmd').2 ∧
    (processN (n + 1) f cmd).1.state = (processN (n' + 1) v cmd').1.state := by
  obtain ⟨h1, h2⟩ := processN_entry n f cmd ha hs hm
  obtain ⟨h3, h4⟩ := processN_entry n' v cmd' ha' hs' hm'
  rw [h1, h2, h3, h4, entry_without f.tc v.tc a b d hd hal ht ht' invalidFed invalidFed]
  exact ⟨rfl, rfl⟩

theorem entering_fields (tc : TC) : (tc.enteringExecMode .noIterations).core =
      (if tc.executionMode then tc.core else { tc.core with iterating := .noIterations }) ∧
    (tc.enteringExecMode .noIterations).blocks = tc.blocks ∧ (tc.enteringExecMode .noIterations).seq = tc.seq ∧
    (tc.enteringExecMode .noIterations).restrictionLevel = tc.restrictionLevel ∧
    (tc.enteringExecMode .noIterations).deps = tc.deps := by
  unfold enteringExecMode
  by_cases h : tc.executionMode = true
  · rw [if_pos h, if_pos h]; exact ⟨rfl, rfl, rfl, rfl, rfl⟩
  · rw [if_neg h, if_neg h]
    simp only
    split
    · exact ⟨rfl, rfl, rfl, rfl, rfl⟩
    · exact ⟨rfl, rfl, rfl, rfl, rfl⟩

theorem alike_entering {t u : TC} (hal : Alike t u) : Alike (t.enteringExecMode .noIterations) (u.enteringExecMode .noIterations) := by
  obtain ⟨a1, a2, a3, a4, _⟩ := entering_fields t
  obtain ⟨b1, b2, b3, b4, _⟩ := entering_fields u
  have h : t.executionMode = u.executionMode := congrArg Core.executionMode hal.core
  exact ⟨by rw [a1, b1, h, hal.core], a2.trans (hal.blocks.trans b2.symm), a3.trans (hal.seq.trans b3.symm),
    a4.trans (hal.level.trans b4.symm)⟩

/-- what a request to enter without iteration does -/
theorem requestExec_eq (f : Fed) :
    f.requestExec .noIterations = processN 3 { f with tc := f.tc.enteringExecMode .noIterations, mode := false }
      { action := .execCheck, source := f.tc.self, dest := f.tc.self, indicator := true } := by
  unfold requestExec process setIterationFlags
  simp only
  conv => lhs; unfold processN coordinator
  simp only [and_self, if_true]
  unfold stateChange
  simp only [if_true, Bool.false_eq_true, if_false]
  unfold secondSwitch
  have hself : (f.tc.enteringExecMode .noIterations).self = f.tc.self := by
    have := congrArg Core.self (entering_fields f.tc).1
    refine this.trans ?_
    split <;> rfl
  simp only [hself, and_self, if_true]

/-! ### The property -/

/-- **C09**.  When a federate has heard that its dependency `m.source` has left or failed, then from that moment
on - as long as `m.source` does not speak again - the entry it keeps for `m.source` has no influence on what its
own requests are answered: a time request, a request to enter executing mode and the re-examination of either one
while it is pending all end exactly as if the entry were not in the table, with the same time. -/
theorem C09_no_delay (limit : Int) (f : Fed) (m : Msg) (post : List FedOp) (hf : Reached limit f) (hm : m.sane f.tc.self)
    (hb : farewell m) (hh : hears f.tc.self m = true) (hg : m.source ≠ f.tc.self)
    (hd : f.tc.deps.isDependency m.source = true) (hpost : ∀ p ∈ post, p.sane f.tc.self ∧ leaves m.source p) :
    let u := f.run limit (.msg m :: post)
    ∃ a d b, u.tc.deps = a ++ d :: b ∧ d.fedID = m.source ∧
      (∀ t it nv nm, let o := FedOp.timeRequest t it nv nm;
        (u.step limit o).2 = ((withTable u (a ++ b)).step limit o).2 ∧
        returned (u.step limit o) = returned ((withTable u (a ++ b)).step limit o)) ∧
      (let o := FedOp.execRequest .noIterations;
        (u.step limit o).2 = ((withTable u (a ++ b)).step limit o).2 ∧
        (u.step limit o).1.state = ((withTable u (a ++ b)).step limit o).1.state) ∧
      (∀ c : Msg, c.action = .timeCheck → u.state = .executing → u.mode = false →
        (u.step limit (.msg c)).2 = ((withTable u (a ++ b)).step limit (.msg c)).2 ∧
        returned (u.step limit (.msg c)) = returned ((withTable u (a ++ b)).step limit (.msg c))) ∧
      (∀ c : Msg, c.action = .execCheck → u.state = .initializing → u.mode = false →
        (u.step limit (.msg c)).2 = ((withTable u (a ++ b)).step limit (.msg c)).2 ∧
        (u.step limit (.msg c)).1.state = ((withTable u (a ++ b)).step limit (.msg c)).1.state) := by
  intro u
  have hok := step_ok limit f (.msg m) hf.inv hm
  have h1 : Has m.source Gone (f.step limit (.msg m)).1.tc.deps := by
    refine has_word hf (lasting_gone _) hm hh hg hd ?_ (fun d hc => process_farewell m d hb hc) (fun d h => h.2.2.2.2)
    unfold word
    rcases hb with e | e | e | e | e | e <;> rw [e] <;> exact (by intro h; cases h)
  have hgen : ∀ (post : List FedOp) (w : Fed), Inv w → Has m.source Gone w.tc.deps → m.source ≠ w.tc.self →
      (∀ p ∈ post, p.sane w.tc.self ∧ leaves m.source p) → Inv (w.run limit post) ∧ Has m.source Gone (w.run limit post).tc.deps := by
    intro post
    induction post with
    | nil => intro w hi h _ _; exact ⟨hi, h⟩
    | cons o os ih =>
      intro w hi h hg hp
      have ho := hp o (by simp)
      have hok := step_ok limit w o hi ho.1
      have hst := has_step (limit := limit) (Q := Gone) hi o ho.1 ho.2 hg (lasting_gone _) (lasting_gone _) (fun _ h => h)
        (fun d h => by
          have hx : max maxVal w.tc.granted = maxVal := by have := hi.good.range; omega
          exact ⟨h.1, h.2.1, by rw [h.2.1]; exact hx, by rw [h.2.1]; exact hx, h.2.2.2.2⟩) h
      rw [ite_self] at hst
      exact ih _ hok.inv hst (by rw [hok.self]; exact hg) (fun p h => by rw [hok.self]; exact hp p (by simp [h]))
  obtain ⟨hi, h2⟩ := hgen post _ hok.inv h1 (by rw [hok.self]; exact hg) (fun p h => by rw [hok.self]; exact hpost p h)
  change Has m.source Gone u.tc.deps at h2
  change Inv u at hi
  obtain ⟨d, hmem, hid, hdep, hgone⟩ := h2
  obtain ⟨a, b, hab⟩ := List.append_of_mem hmem
  have hal : Alike u.tc (withTable u (a ++ b)).tc := ⟨rfl, rfl, rfl, rfl⟩
  refine ⟨a, d, b, hab, hid, ?_, ?_, ?_, ?_⟩
  · intro t it nv nm o
    simp only [o, step]
    by_cases hc : u.state = .executing ∧ u.mode = true
    · rw [if_pos hc, if_pos (show (withTable u (a ++ b)).state = .executing ∧ (withTable u (a ++ b)).mode = true from hc)]
      unfold request
      have hx : max maxVal u.tc.granted = maxVal := by have := hi.good.range; omega
      have hr : Gone { d with Te := max d.next u.tc.granted, minDe := max d.next u.tc.granted } :=
        ⟨hgone.1, hgone.2.1, by show max d.next _ = _; rw [hgone.2.1]; exact hx,
          by show max d.next _ = _; rw [hgone.2.1]; exact hx, hgone.2.2.2.2⟩
      have hdeps : (u.tc.timeRequest t (u.limitIter limit it) nv nm).deps =
          Deps.resetEvents a u.tc.granted ++ { d with Te := max d.next u.tc.granted, minDe := max d.next u.tc.granted } ::
            Deps.resetEvents b u.tc.granted := by
        rw [(timeRequest_rest _ _ _ _ _).2.2, hab]
        unfold resetEvents
        rw [List.map_append, List.map_cons, if_pos hdep]
      have hdeps' : ((withTable u (a ++ b)).tc.timeRequest t ((withTable u (a ++ b)).limitIter limit it) nv nm).deps =
          Deps.resetEvents a u.tc.granted ++ Deps.resetEvents b u.tc.granted := by
        rw [(timeRequest_rest _ _ _ _ _).2.2]
        unfold resetEvents
        exact List.map_append
      exact check_without _ _ _ _ _ _ _ hr rfl rfl hc.1 rfl hc.1 rfl (alike_timeRequest hal _ _ _ _) hdeps hdeps'
    · rw [if_neg hc, if_neg (show ¬ ((withTable u (a ++ b)).state = .executing ∧ (withTable u (a ++ b)).mode = true) from hc)]
      refine ⟨rfl, ?_⟩
      unfold returned
      rfl
  · intro o
    simp only [o, step]
    by_cases hc : u.state = .initializing ∧ u.mode = true
    · rw [if_pos hc, if_pos (show (withTable u (a ++ b)).state = .initializing ∧ (withTable u (a ++ b)).mode = true from hc)]
      rw [requestExec_eq u, requestExec_eq (withTable u (a ++ b))]
      refine entry_step_without 2 2 _ _ _ _ a b d hgone rfl rfl hc.1 rfl hc.1 rfl (alike_entering hal) ?_ ?_
      · exact (entering_fields u.tc).2.2.2.2.trans hab
      · exact (entering_fields (withTable u (a ++ b)).tc).2.2.2.2
    · rw [if_neg hc, if_neg (show ¬ ((withTable u (a ++ b)).state = .initializing ∧ (withTable u (a ++ b)).mode = true) from hc)]
      exact ⟨rfl, rfl⟩
  · intro c hc hs hmo
    exact check_without u (withTable u (a ++ b)) c c a b d hgone hc hc hs hmo hs hmo hal hab rfl
  · intro c hc hs hmo
    exact entry_step_without 3 3 u (withTable u (a ++ b)) c c a b d hgone hc hc hs hmo hs hmo hal hab rfl

/-! ### When everybody has left -/

theorem total_gone (ds : Deps) (h : ∀ d ∈ ds, d.dependency = true → Gone d) (r : Bool) (c : Int) :
    (minTimeTotal ds r invalidFed invalidFed c).next = maxVal := by
  have hsim : ∀ (l : Deps) (m : TimeData), (∀ d ∈ l, Gone d) → Low m → Sim (l.foldl (minTimeImpl invalidFed c) m) m := by
    intro l
    induction l with
    | nil => intro m _ _; exact ⟨rfl, rfl, rfl, Iff.rfl⟩
    | cons d l ih =>
      intro m hd hl
      rw [List.foldl_cons]
      have h1 := gone_step hl invalidFed c (hd d (by simp))
      have h2 := ih _ (fun e he => hd e (by simp [he])) (low_step hl invalidFed c d)
      exact ⟨h2.next.trans h1.next, h2.te.trans h1.te, h2.minDe.trans h1.minDe, h2.cls.trans h1.cls⟩
  have h0 : Low (TimeData.ofStart maxVal .error) := ⟨by decide, by decide, by decide, by decide⟩
  have hs := hsim (totalParts ds invalidFed) _ (fun d hd => by
    unfold totalParts at hd
    rw [List.mem_filter] at hd
    simp only [Bool.and_eq_true] at hd
    exact h d hd.1 hd.2.1) h0
  rw [minTimeTotal_eq]
  unfold minTimeInit
  have f1 := minTimeFinish_fields ((totalParts ds invalidFed).foldl (minTimeImpl invalidFed c) (TimeData.ofStart maxVal .error)) r
  rw [f1.2.1]
  have hx : ¬ ((totalParts ds invalidFed).foldl (minTimeImpl invalidFed c) (TimeData.ofStart maxVal .error)).state.rank < TimeState.granted.rank := by
    intro hx
    have := hs.cls.1 hx
    exact absurd this (by decide)
  rw [if_neg hx, f1.2.2.2, hs.next, hs.te, hs.minDe]
  have : (TimeData.ofStart maxVal .error).next = maxVal := rfl
  have h2 : (TimeData.ofStart maxVal .error).Te = maxVal := rfl
  have h3 : (TimeData.ofStart maxVal .error).minDe = maxVal := rfl
  rw [this, h2, h3]
  split <;> omega

/-- **C09** (released).  A federate all of whose dependencies have left or failed is answered at once when it asks
for a time without iteration and no barrier is set. -/
theorem C09_alone (limit : Int) (u : Fed) (hf : Reached limit u) (hs : u.state = .executing) (hm : u.mode = true)
    (hn : u.tc.nonGranting = false) (hb : cTerm ≤ u.tc.block)
    (hall : ∀ d ∈ u.tc.deps, d.dependency = true → Gone d) (t nv nm : Time) :
    (u.step limit (.timeRequest t .noIterations nv nm)).2 = .nextStep ∨
    (u.step limit (.timeRequest t .noIterations nv nm)).2 = .halted := by
  have hi := hf.inv
  simp only [step]
  rw [if_pos ⟨hs, hm⟩]
  unfold request
  rw [process_check { u with tc := u.tc.timeRequest t (u.limitIter limit .noIterations) nv nm, mode := false } _ rfl hs rfl]
  dsimp only
  have hlim : u.limitIter limit .noIterations = .noIterations := rfl
  rw [hlim]
  obtain ⟨f1, f2, f3, f4, f5, f6, f7, f8⟩ := timeRequest_fields u.tc t .noIterations nv nm
  have hbl : (u.tc.timeRequest t .noIterations nv nm).block = u.tc.block :=
    congrArg Prod.snd (timeRequest_core u.tc t .noIterations nv nm).2
  have hdeps := (timeRequest_rest u.tc t .noIterations nv nm).2.2
  have hall' : ∀ d ∈ (u.tc.timeRequest t .noIterations nv nm).deps, d.dependency = true → Gone d := by
    rw [hdeps]
    intro d hd hdep
    unfold resetEvents at hd
    obtain ⟨e, he, rfl⟩ := List.mem_map.1 hd
    by_cases hx : e.dependency = true
    · rw [if_pos hx]
      have hg := hall e he hx
      have hx : max maxVal u.tc.granted = maxVal := by have := hi.good.range; omega
      exact ⟨hg.1, hg.2.1, by show max e.next _ = _; rw [hg.2.1]; exact hx,
          by show max e.next _ = _; rw [hg.2.1]; exact hx, hg.2.2.2.2⟩
    · rw [if_neg hx] at hdep; exact absurd hdep hx
  generalize u.tc.timeRequest t .noIterations nv nm = w at *
  have hallow : w.updateTimeFactors.allow = maxVal := by
    rw [updateTimeFactors_allow]
    simp only
    rw [total_gone _ hall', if_neg]
    have h1 := hi.good.delta
    rw [f3]
    have h2 : cTerm ≤ maxVal := by decide
    omega
  have hni : w.nonGranting = false := f7.trans hn
  have hit : w.updateTimeFactors.iterating = .noIterations := f5
  have hct : cTerm ≤ maxVal := by decide
  have hlt : cTerm < maxVal := by decide
  unfold checkTimeGrant
  simp only
  by_cases h1 : w.updateTimeFactors.exec ≥ cTerm
  · rw [if_pos ⟨h1, by rw [hallow]; exact hct⟩]; exact Or.inr rfl
  · rw [if_neg (fun h => h1 h.1), if_neg (fun h => by
      have : w.updateTimeFactors.block = u.tc.block := hbl
      rw [this] at h; omega), if_neg (fun h => by
      have : w.updateTimeFactors.nonGranting = false := hni
      rw [this] at h; exact absurd h.1 (by simp))]
    rw [hit]
    simp only
    unfold grantNoIter
    rw [if_pos (show w.updateTimeFactors.allow > w.updateTimeFactors.exec by rw [hallow]; omega)]
    exact Or.inl rfl

/-! ### Witnesses -/

/-- the request of the demo federate waits for 8 and is answered as soon as 8 leaves (or fails), with the time asked for -/
example : (demo.run 100 [.timeRequest 20 .noIterations maxVal maxVal]).mode = false ∧
    returned ((demo.run 100 [.timeRequest 20 .noIterations maxVal maxVal]).step 100 (fromEight .disconnect 0)) = some 20 ∧
    returned ((demo.run 100 [.timeRequest 20 .noIterations maxVal maxVal]).step 100 (fromEight .localError 0)) = some 20 ∧
    returned ((demo.run 100 [fromEight .disconnect 0]).step 100 (.timeRequest 20 .noIterations maxVal maxVal)) = some 20 := by
  decide

/-- the hypotheses of `C09_no_delay` and `C09_alone` -/
example : farewell { action := .disconnect, source := 8, dest := 7 } ∧ hears 7 { action := .disconnect, source := 8, dest := 7 } = true ∧
    demo.tc.self = 7 ∧ demo.tc.deps.isDependency 8 = true ∧ Reached 100 demo ∧
    (let u := demo.run 100 [fromEight .disconnect 0]
     u.state = .executing ∧ u.mode = true ∧ u.tc.nonGranting = false ∧ cTerm ≤ u.tc.block ∧
     u.tc.deps.length = 1 ∧ ∀ d ∈ u.tc.deps, d.dependency = true ∧ Gone d) :=
  ⟨Or.inl rfl, by decide, by decide, by decide, demo_reached, by
    unfold Gone; decide⟩

/-- before executing mode: 8 fails, and the federate waiting for it enters at its request -/
example : (waiting.run 100 [.execRequest .noIterations]).state = .initializing ∧
    (waiting.run 100 [fromEight .localError 0, .execRequest .noIterations]).state = .executing := by decide

end Departed
end Verif
