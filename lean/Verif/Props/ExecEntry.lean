import Verif.Lemmas.EnterExec
import Verif.Props.Causal
/-!
# C07: entry to executing mode waits for the dependencies
-/
namespace Verif
namespace ExecEntry
open Fed TC Deps Grants Causal

/-- The event answers, or makes, a request to enter executing mode without iteration. -/
def plainEntry (u : Fed) : FedOp → Prop
  | .execRequest it => it = .noIterations ∧ u.tc.executionMode = false
  | _ => u.tc.iterating = .noIterations

theorem lasting_true (g : FedId) : Lasting g (fun _ => True) :=
  ⟨⟨fun _ _ => trivial, fun _ _ => trivial, fun _ _ _ => trivial, fun _ _ _ => trivial⟩, fun _ _ _ _ _ => trivial⟩

/-- an event without a word of `g` that leads into executing mode: the facts about `g` hold in the state that let
it in -/
theorem step_entered {limit : Int} {f : Fed} {g : FedId} {P : DepInfo → Prop} (hi : Inv f) (hs : f.state ≠ .executing)
    (o : FedOp) (ho : o.sane f.tc.self) (hl : leaves g o) (hg : g ≠ f.tc.self) (hP : Lasting g P) (h : Has g P f.tc.deps)
    (he : (f.step limit o).1.state = .executing) :
    ∃ c : TC, c.info = f.tc.info ∧ Has g P c.deps ∧ (plainEntry f o → c.iterating = .noIterations) ∧ 0 < c.block ∧
      c.deps.readyForExecEntry (c.iterating != .noIterations) c.info.waitForCurrent = true := by
  cases o with
  | msg cmd =>
    obtain ⟨c, t, h1, h2, h3, h4⟩ := processN_entered 4 f cmd hs ho.1 hi.self he
    obtain ⟨h5, h6⟩ := checkExecEntry_next h4
    have hsil : cmd.source = g → ∀ d, P d → P (d.process cmd).1 := fun e d hd => hP.silent cmd d (hl.1 e).1 (hl.1 e).2 hd
    refine ⟨c, h1, (has_tableAfter hP.robust h cmd hl.2.1 hsil).dr hP.robust h3 hg hsil, fun hp => ?_, h5, h6⟩
    rw [h2]
    unfold modeAfter
    rw [if_neg (fun hx => ho.2 ⟨Or.inl hx.1, hx.2⟩)]
    exact hp
  | execRequest it =>
    simp only [step] at he
    split at he
    · unfold requestExec process at he
      have hsrc : (setIterationFlags { action := .execRequest, source := f.tc.self, dest := f.tc.self, indicator := true } it).source = f.tc.self := by
        cases it <;> rfl
      have hact : (setIterationFlags { action := .execRequest, source := f.tc.self, dest := f.tc.self, indicator := true } it).actionTime = 0 := by
        cases it <;> rfl
      have hac : (setIterationFlags { action := .execRequest, source := f.tc.self, dest := f.tc.self, indicator := true } it).action = .execRequest := by
        cases it <;> rfl
      have hin : (setIterationFlags { action := .execRequest, source := f.tc.self, dest := f.tc.self, indicator := true } it).indicator = true := by
        cases it <;> rfl
      have hit : it = .noIterations →
          (setIterationFlags { action := .execRequest, source := f.tc.self, dest := f.tc.self, indicator := true } it).iterationRequested = false := by
        intro e; subst e; rfl
      generalize setIterationFlags { action := .execRequest, source := f.tc.self, dest := f.tc.self, indicator := true } it = cmd at *
      obtain ⟨c, t, h1, h2, h3, h4⟩ := processN_entered 4 f cmd hs (by rw [hact]; decide) hi.self he
      obtain ⟨h5, h6⟩ := checkExecEntry_next h4
      have hsil : cmd.source = g → ∀ d, P d → P (d.process cmd).1 := fun e => absurd (e.symm.trans hsrc) hg
      refine ⟨c, h1, (has_tableAfter hP.robust h cmd (by unfold rewires; rw [hsrc]; simp [Ne.symm hg]) hsil).dr hP.robust h3 hg hsil,
        fun hp => ?_, h5, h6⟩
      rw [h2]
      unfold modeAfter
      rw [if_pos ⟨hac, hsrc, hin⟩, hit hp.1]
      simp only [Bool.false_eq_true, if_false]
      unfold enteringExecMode
      rw [if_neg (by rw [hp.2]; simp)]
      repeat' split
      all_goals (try rfl)
      all_goals (simp only; repeat' split)
      all_goals rfl
    · exact absurd he hs
  | timeRequest t it nv nm =>
    simp only [step] at he
    rw [if_neg (fun h => hs h.1)] at he
    exact absurd he hs
  | value cmd => exact absurd he hs
  | message cmd => exact absurd he hs
  | setTime p v => simp only [step] at he; split at he <;> exact absurd he hs
  | setFlag p v => exact absurd he hs
  | setMaxIterations v => exact absurd he hs

/-- not asked yet: neither an exec request nor anything later has been heard -/
def Unasked (d : DepInfo) : Prop :=
  d.state = .initialized ∧ d.connection ≠ .self ∧ d.grantedIteration = 0 ∧ d.sequenceCounter = 0

theorem lasting_unasked (g : FedId) : Lasting g Unasked where
  robust := ⟨fun _ h => h, fun _ h => h, fun d h _ => ⟨rfl, h.2.1, h.2.2.2, rfl⟩, fun d h hs => by rw [h.1] at hs; cases hs⟩
  silent cmd d hw hq hd := by
    obtain ⟨h1, h2, h3, h4⟩ := hd
    refine ⟨?_, by rw [process_conn]; exact h2, ?_, ?_⟩
    all_goals
      unfold word at hw
      unfold DepInfo.process
      split <;> rename_i ha <;> simp only [ha] at hw
      all_goals (first | (cases hw; done) | assumption | (split at hw <;> cases hw) | exact hq ha)

theorem fresh_unasked : Fresh Unasked :=
  ⟨fun _ => ⟨rfl, (nomatch ·), rfl, rfl⟩, fun _ _ hc h => ⟨h.1, hc, h.2.2⟩, fun _ _ h => h⟩

theorem unasked_blocks {g : FedId} {ds : Deps} (h : Has g Unasked ds) (it w : Bool) : ds.readyForExecEntry it w = false := by
  obtain ⟨d, hm, _, h2, h3, h4, h5, _⟩ := h
  have key : ∀ p : DepInfo → Bool, p d = false → ds.all p = false := by
    intro p hp
    rw [List.all_eq_false]
    exact ⟨d, hm, by rw [hp]; simp⟩
  unfold readyForExecEntry
  cases it <;> cases w <;> simp only [Bool.false_eq_true, if_false, if_true]
  · apply key; simp [h2, h3, TimeState.rank, h4]
  · unfold allPastExec; apply key; simp [h2, h3, TimeState.rank, h4]
  · apply key; simp [h2, h3]
  · apply key; unfold iterWaitingCheck; simp [h2, h3, h4, h5]

/-- **C07** (nobody is left behind).  Once a federate `g` is registered as a dependency of a federate that is not
executing yet, the federate does not enter executing mode - whatever it asks for and whatever others do - before
`g` has spoken: asked for execution, or reported something later (a grant, a time request, its departure). -/
theorem C07_waits (limit : Int) (f : Fed) (m : Msg) (post : List FedOp)
    (hf : Reached limit f) (hs : f.state ≠ .executing) (hm : m.sane f.tc.self)
    (ha : m.action = .addDependency ∨ m.action = .addInterdependency) (hdst : m.dest = f.tc.self)
    (hg : m.source ≠ f.tc.self) (hnew : f.tc.deps.find m.source = none)
    (hpost : ∀ p ∈ post, p.sane f.tc.self ∧ leaves m.source p) :
    (f.run limit (.msg m :: post)).state ≠ .executing := by
  have hi := hf.inv
  have hsil : word m = .silent := by unfold word; rcases ha with e | e <;> rw [e]
  have hq : plainQuery m := by unfold plainQuery; rcases ha with e | e <;> rw [e] <;> exact (nomatch ·)
  have h0 : Has m.source Unasked (f.tc.tableAfter m) :=
    table_new fresh_unasked (lasting_unasked m.source).robust ha hdst hg hnew
  have h1 : Has m.source Unasked (f.step limit (.msg m)).1.tc.deps :=
    h0.dr (lasting_unasked m.source).robust (dr_process f m hm.1 hi.self) hg
      (fun _ d hd => (lasting_unasked m.source).silent m d hsil hq hd)
  have hok := step_ok limit f (.msg m) hi hm
  have hs1 : (f.step limit (.msg m)).1.state ≠ .executing := by
    intro he
    obtain ⟨c, t, _, _, h3, h4⟩ := processN_entered 4 f m hs hm.1 hi.self he
    have h5 := (checkExecEntry_next h4).2
    rw [unasked_blocks (h0.dr (lasting_unasked m.source).robust h3 hg
      (fun _ d hd => (lasting_unasked m.source).silent m d hsil hq hd))] at h5
    cases h5
  have hgen : ∀ (post : List FedOp) (u : Fed), Inv u → u.state ≠ .executing → Has m.source Unasked u.tc.deps →
      m.source ≠ u.tc.self → (∀ p ∈ post, p.sane u.tc.self ∧ leaves m.source p) →
      (u.run limit post).state ≠ .executing := by
    intro post
    induction post with
    | nil => intro u _ h _ _ _; exact h
    | cons o os ih =>
      intro u hi hs h hg hp
      have ho := hp o (by simp)
      have hok := step_ok limit u o hi ho.1
      have hst := has_step (limit := limit) (Q := fun _ => True) hi o ho.1 ho.2 hg (lasting_unasked _)
        (lasting_true _) (fun _ _ => trivial) (fun _ _ => trivial) h
      rw [if_neg hs] at hst
      refine ih _ hok.inv ?_ hst (by rw [hok.self]; exact hg) (fun p h => by rw [hok.self]; exact hp p (by simp [h]))
      intro he
      obtain ⟨c, _, h2, _, _, h6⟩ := step_entered hi hs o ho.1 ho.2 hg (lasting_unasked _) h he
      rw [unasked_blocks h2] at h6
      cases h6
  exact hgen post _ hok.inv hs1 h1 (by rw [hok.self]; exact hg) (fun p h => by rw [hok.self]; exact hpost p h)

/-! ### Federates that do not iterate -/

/-- asked only for iteration, or sent back to iterate -/
def Iterating (d : DepInfo) : Prop := d.state.rank < TimeState.execReq.rank ∧ d.connection ≠ .self

theorem lasting_iterating (g : FedId) : Lasting g Iterating where
  robust := ⟨fun _ h => h, fun _ h => h, fun d h _ => ⟨show TimeState.initialized.rank < _ by decide, h.2⟩, fun d h hs => by
    have := h.1; rw [hs] at this; exact absurd this (by decide)⟩
  silent cmd d hw hq hd := by
    refine ⟨?_, by rw [process_conn]; exact hd.2⟩
    have h1 := hd.1
    unfold word at hw
    unfold DepInfo.process
    split <;> rename_i ha <;> simp only [ha] at hw
    all_goals (first | (cases hw; done) | assumption | (split at hw <;> cases hw))

theorem iterating_blocks {g : FedId} {ds : Deps} (h : Has g Iterating ds) (w : Bool) : ds.readyForExecEntry false w = false := by
  obtain ⟨d, hm, _, h2, h3, h4⟩ := h
  have key : ∀ p : DepInfo → Bool, p d = false → ds.all p = false := by
    intro p hp
    rw [List.all_eq_false]
    exact ⟨d, hm, by rw [hp]; simp⟩
  unfold readyForExecEntry
  cases w <;> simp only [Bool.false_eq_true, if_false, if_true]
  · apply key
    simp [h2, h4]; exact h3
  · unfold allPastExec; apply key
    have h5 : d.state ≠ .granted := by intro e; rw [e] at h3; exact absurd h3 (by decide)
    have h6 : ¬ TimeState.timeReq.rank ≤ d.state.rank := by
      have : TimeState.execReq.rank ≤ TimeState.timeReq.rank := by decide
      omega
    simp [h2, h4, h5, h6]

/-- entered, but nothing heard about a time after the start -/
def AtStart (d : DepInfo) : Prop :=
  (d.state.rank < TimeState.granted.rank ∨ (d.state = .granted ∧ d.next = 0)) ∧ d.connection ≠ .self

theorem lasting_atStart (g : FedId) : Lasting g AtStart where
  robust := ⟨fun _ h => h, fun _ h => h, fun d h _ => ⟨Or.inl (show TimeState.initialized.rank < _ by decide), h.2⟩, fun d h hs => by
    rcases h.1 with h | ⟨h, _⟩ <;> rw [hs] at h <;> exact absurd h (by decide)⟩
  silent cmd d hw hq hd := by
    refine ⟨?_, by rw [process_conn]; exact hd.2⟩
    have h1 := hd.1
    unfold word at hw
    unfold DepInfo.process
    split <;> rename_i ha <;> simp only [ha] at hw
    all_goals (first | (cases hw; done) | assumption | (split at hw <;> cases hw))

theorem atStart_blocks {g : FedId} {ds : Deps} (h : Has g AtStart ds) : ds.readyForExecEntry false true = false := by
  obtain ⟨d, hm, _, h2, h3, h4⟩ := h
  unfold readyForExecEntry allPastExec
  simp only [Bool.false_eq_true, if_false, if_true]
  rw [List.all_eq_false]
  refine ⟨d, hm, ?_⟩
  have h6 : ¬ TimeState.timeReq.rank ≤ d.state.rank := by
    have e1 : TimeState.timeReq.rank = 8 := rfl
    have e2 : TimeState.granted.rank = 5 := rfl
    rcases h3 with h | ⟨h, _⟩
    · omega
    · rw [h]; omega
  rcases h3 with h | ⟨h, hn⟩
  · have : d.state ≠ .granted := by intro e; rw [e] at h; omega
    simp [h2, h4, h6, this]
  · simp [h2, h4, h6, hn]

/-- keeping facts about `g` until an event that would enter executing mode -/
theorem hold_entry (limit : Int) (f : Fed) (g : FedId) {P : DepInfo → Prop} (hP : Lasting g P)
    (hi : Inv f) (hg : g ≠ f.tc.self) (h : Has g P f.tc.deps) (post : List FedOp) (o : FedOp)
    (hpost : ∀ p ∈ post, p.sane f.tc.self ∧ leaves g p) (ho : o.sane f.tc.self) (hl : leaves g o)
    (hs : (f.run limit post).state ≠ .executing) (hr : (f.run limit post).state.rank ≤ FedState.executing.rank)
    (he : ((f.run limit post).step limit o).1.state = .executing) :
    ∃ c : TC, c.info = (f.run limit post).tc.info ∧ Has g P c.deps ∧
      (plainEntry (f.run limit post) o → c.iterating = .noIterations) ∧
      c.deps.readyForExecEntry (c.iterating != .noIterations) c.info.waitForCurrent = true := by
  induction post generalizing f with
  | nil =>
    obtain ⟨c, h1, h2, h3, _, h5⟩ := step_entered hi hs o ho hl hg hP h he
    exact ⟨c, h1, h2, h3, h5⟩
  | cons p ps ih =>
    have hp := hpost p (by simp)
    have hok := step_ok limit f p hi hp.1
    have hself : (f.step limit p).1.tc.self = f.tc.self := hok.self
    have hps : ∀ q ∈ ps, q.sane (f.step limit p).1.tc.self ∧ leaves g q := fun q hq => by
      rw [hself]; exact hpost q (by simp [hq])
    have hrun := run_ok limit (f.step limit p).1 ps hok.inv (fun q hq => (hps q hq).1)
    have hne : f.state ≠ .executing := by
      intro e
      have h1 : f.state.rank ≤ (f.run limit (p :: ps)).state.rank := Nat.le_trans hok.rank hrun.2.1
      exact hs (rank_exec e h1 hr)
    have hst := has_step (limit := limit) (Q := fun _ => True) hi p hp.1 hp.2 hg hP (lasting_true _)
      (fun _ _ => trivial) (fun _ _ => trivial) h
    rw [if_neg hne] at hst
    exact ih (f.step limit p).1 hok.inv (by rw [hself]; exact hg) hst hps (by rw [hself]; exact ho) hs hr he

/-- the state after a command of the dependency -/
theorem has_word {limit : Int} {f : Fed} {m : Msg} {P : DepInfo → Prop} (hf : Reached limit f) (hP : Lasting m.source P)
    (hm : m.sane f.tc.self) (hh : hears f.tc.self m = true) (hg : m.source ≠ f.tc.self)
    (hd : f.tc.deps.isDependency m.source = true) (hw : word m ≠ .silent)
    (hset : ∀ d : DepInfo, d.connection ≠ .self → P (d.process m).1) (hc : ∀ d, P d → d.connection ≠ .self) :
    Has m.source P (f.step limit (.msg m)).1.tc.deps := by
  have h0 : Has m.source P (f.tc.tableAfter m) := table_word hd hh hw hf.ownMark hg hset
  exact h0.dr hP.robust (dr_process f m hm.1 hf.inv.self) hg (fun _ d h => hset d (hc d h))

/-- **C07** (an iterating dependency).  A federate that enters without iterating does not enter executing mode
while the last word of one of its dependencies is a request for iteration, or the order to iterate again. -/
theorem C07_no_iteration (limit : Int) (f : Fed) (m : Msg) (post : List FedOp) (o : FedOp)
    (hf : Reached limit f) (hm : m.sane f.tc.self) (hh : hears f.tc.self m = true) (hg : m.source ≠ f.tc.self)
    (hd : f.tc.deps.isDependency m.source = true)
    (ha : (m.action = .execRequest ∨ m.action = .execGrant) ∧ m.iterationRequested = true)
    (hpost : ∀ p ∈ post, p.sane f.tc.self ∧ leaves m.source p) (ho : o.sane f.tc.self) (hl : leaves m.source o) :
    let u := f.run limit (.msg m :: post)
    u.state = .initializing → plainEntry u o → (u.step limit o).1.state ≠ .executing := by
  intro u hs hp he
  have hok := step_ok limit f (.msg m) hf.inv hm
  have h1 : Has m.source Iterating (f.step limit (.msg m)).1.tc.deps := by
    refine has_word hf (lasting_iterating _) hm hh hg hd ?_ ?_ (fun d h => h.2)
    · unfold word; rcases ha.1 with e | e <;> rw [e]
      · exact (nomatch ·)
      · simp only [ha.2, if_true]; exact (nomatch ·)
    · intro d hc
      refine ⟨?_, by rw [process_conn]; exact hc⟩
      unfold DepInfo.process
      rcases ha.1 with e | e <;> rw [e] <;> simp only [ha.2, if_true, Bool.not_true, Bool.false_eq_true, if_false]
      · split <;> decide
      · decide
  obtain ⟨c, h2, h3, h4, h5⟩ := hold_entry limit (f.step limit (.msg m)).1 m.source (lasting_iterating _) hok.inv
    (by rw [hok.self]; exact hg) h1 post o (fun p h => by rw [hok.self]; exact hpost p h) (by rw [hok.self]; exact ho) hl
    (by show u.state ≠ _; rw [hs]; exact (nomatch ·)) (by show u.state.rank ≤ _; rw [hs]; decide) he
  rw [h4 hp, show (IterReq.noIterations != IterReq.noIterations) = false from rfl, iterating_blocks h3] at h5
  cases h5

/-- **C07** (waiting for the current time).  A federate that waits for the current time and does not iterate enters
executing mode only after each dependency has gone beyond the start: it stays out while the last word of one of
them is a request to enter executing mode or the notice that it entered. -/
theorem C07_wait_for_current (limit : Int) (f : Fed) (m : Msg) (post : List FedOp) (o : FedOp)
    (hf : Reached limit f) (hm : m.sane f.tc.self) (hh : hears f.tc.self m = true) (hg : m.source ≠ f.tc.self)
    (hd : f.tc.deps.isDependency m.source = true)
    (ha : m.action = .execRequest ∨ m.action = .execGrant)
    (hpost : ∀ p ∈ post, p.sane f.tc.self ∧ leaves m.source p) (ho : o.sane f.tc.self) (hl : leaves m.source o) :
    let u := f.run limit (.msg m :: post)
    u.state = .initializing → u.tc.info.waitForCurrent = true → plainEntry u o → (u.step limit o).1.state ≠ .executing := by
  intro u hs hwt hp he
  have hok := step_ok limit f (.msg m) hf.inv hm
  have h1 : Has m.source AtStart (f.step limit (.msg m)).1.tc.deps := by
    refine has_word hf (lasting_atStart _) hm hh hg hd ?_ ?_ (fun d h => h.2)
    · unfold word; rcases ha with e | e <;> rw [e]
      · exact (nomatch ·)
      · simp only; split <;> exact (nomatch ·)
    · intro d hc
      refine ⟨?_, by rw [process_conn]; exact hc⟩
      unfold DepInfo.process
      rcases ha with e | e <;> rw [e] <;> simp only
      · left; split
        · split <;> decide
        · decide
      · split
        · exact Or.inr ⟨rfl, rfl⟩
        · exact Or.inl (show TimeState.initialized.rank < _ by decide)
  obtain ⟨c, h2, h3, h4, h5⟩ := hold_entry limit (f.step limit (.msg m)).1 m.source (lasting_atStart _) hok.inv
    (by rw [hok.self]; exact hg) h1 post o (fun p h => by rw [hok.self]; exact hpost p h) (by rw [hok.self]; exact ho) hl
    (by show u.state ≠ _; rw [hs]; exact (nomatch ·)) (by show u.state.rank ≤ _; rw [hs]; decide) he
  rw [h4 hp, show (IterReq.noIterations != IterReq.noIterations) = false from rfl, h2,
    show (Fed.run limit (f.step limit (.msg m)).1 post).tc.info.waitForCurrent = true from hwt, atStart_blocks h3] at h5
  cases h5

/-! ### Entering when everybody is ready -/

/-- **C07** (no needless waiting).  A federate that neither iterates nor waits for the current time, is not held by
a barrier at or before the start, enters executing mode at its request when
each of its dependencies has asked for it without iteration or is past it. -/
theorem C07_enters (limit : Int) (f : Fed) (hs : f.state = .initializing) (hm : f.mode = true)
    (hx : f.tc.executionMode = false) (hb : 0 < f.tc.block) (hw : f.tc.info.waitForCurrent = false)
    (hr : ∀ d ∈ f.tc.deps, d.dependency = true → TimeState.execReq.rank ≤ d.state.rank) :
    (f.step limit (.execRequest .noIterations)).1.state = .executing ∧
    (f.step limit (.execRequest .noIterations)).2 = .nextStep := by
  have hready : f.tc.deps.readyForExecEntry false false = true := by
    unfold readyForExecEntry
    simp only [Bool.false_eq_true, if_false]
    rw [List.all_eq_true]
    intro d hd
    cases hdep : d.dependency with
    | false => rfl
    | true => simp [hr d hd hdep]
  have hdeps := deps_enteringExecMode f.tc .noIterations
  have hinfo := info_enteringExecMode f.tc .noIterations
  have hblock : (f.tc.enteringExecMode .noIterations).block = f.tc.block := by
    unfold enteringExecMode
    repeat' split
    all_goals (try rfl)
    all_goals (simp only; repeat' split)
    all_goals rfl
  have hiter : (f.tc.enteringExecMode .noIterations).iterating = .noIterations := by
    unfold enteringExecMode
    rw [if_neg (by rw [hx]; simp)]
    repeat' split
    all_goals (try rfl)
    all_goals (simp only; repeat' split)
    all_goals rfl
  have hself : (f.tc.enteringExecMode .noIterations).self = f.tc.self := by
    unfold enteringExecMode
    repeat' split
    all_goals (try rfl)
    all_goals (simp only; repeat' split)
    all_goals rfl
  have hent : ∀ (t : TC) g, 0 < t.block → t.deps.readyForExecEntry false false = true → t.iterating = .noIterations →
      t.info.waitForCurrent = false → (t.checkExecEntry g).2 = .nextStep := by
    intro t g h1 h2 h3 h4
    unfold checkExecEntry
    rw [if_neg (by omega), h3, h4, show (IterReq.noIterations != IterReq.noIterations) = false from rfl, h2]
    simp only [Bool.not_true, Bool.false_eq_true, if_false]
    unfold execDecision
    simp only [h4, Bool.not_false, if_true]
  simp only [step]
  rw [if_pos ⟨hs, hm⟩]
  unfold requestExec process setIterationFlags
  simp only
  unfold processN coordinator
  simp only [and_self, if_true]
  unfold stateChange
  simp only [if_true, Bool.false_eq_true, if_false]
  unfold secondSwitch
  simp only [hself, and_self, if_true]
  unfold processN coordinator
  simp only
  unfold execCheck
  simp only [hs, ne_eq, not_true_eq_false, if_false, Bool.not_false, if_true]
  rw [hent _ _ (by rw [hblock]; exact hb) (by rw [hdeps]; exact hready) hiter (by rw [hinfo]; exact hw)]
  simp only [reduceCtorEq, if_false]
  unfold stateChange
  simp

/-! ### Witnesses -/

/-- federate 7 in initializing mode, depending on federate 8 -/
def waiting : Fed := (Fed.initial 7 true false false).run 100
  [.msg { action := .addDependency, source := 8, dest := 7 }, .msg { action := .initGrant, dest := 7 }]

theorem waiting_reached : Reached 100 waiting :=
  ⟨7, true, false, false, _, by decide, by
    intro o ho
    simp only [List.mem_cons, List.not_mem_nil, or_false] at ho
    rcases ho with rfl | rfl <;> simp [FedOp.sane, Msg.sane, maxVal], rfl⟩

/-- the request waits for 8; the request of 8 lets it in; a request of 8 for iteration does not -/
example : waiting.state = .initializing ∧ waiting.mode = true ∧ waiting.tc.deps.isDependency 8 = true ∧
    (waiting.run 100 [.execRequest .noIterations]).state = .initializing ∧
    (waiting.run 100 [.execRequest .noIterations, fromEight .execRequest 0]).state = .executing ∧
    (waiting.run 100 [.execRequest .noIterations,
      .msg { action := .execRequest, source := 8, dest := 7, iterationRequested := true }]).state = .initializing := by
  decide

/-- a federate that waits for the current time enters only when 8 has asked for a time -/
example : (waiting.run 100 [.setFlag .waitForCurrent true, .execRequest .noIterations, fromEight .execRequest 0]).state = .initializing ∧
    (waiting.run 100 [.setFlag .waitForCurrent true, .execRequest .noIterations, fromEight .execRequest 0,
      fromEight .execGrant 0]).state = .initializing ∧
    (waiting.run 100 [.setFlag .waitForCurrent true, .execRequest .noIterations, fromEight .execRequest 0,
      fromEight .execGrant 0, fromEight .timeRequest 5]).state = .executing := by decide

/-- the hypotheses of `C07_enters` -/
example : let f := waiting.run 100 [fromEight .execRequest 0]
    f.state = .initializing ∧ f.mode = true ∧ f.tc.executionMode = false ∧ 0 < f.tc.block ∧
    f.tc.info.waitForCurrent = false ∧
    (∀ d ∈ f.tc.deps, d.dependency = true → TimeState.execReq.rank ≤ d.state.rank) := by decide

/-- the hypotheses of `C07_waits`: federate 9 joins as a dependency before the start -/
example : waiting.state ≠ .executing ∧ waiting.tc.deps.find 9 = none ∧
    (waiting.run 100 [.msg { action := .addDependency, source := 9, dest := 7 }, .execRequest .noIterations,
      fromEight .execRequest 0]).state = .initializing ∧
    (waiting.run 100 [.msg { action := .addDependency, source := 9, dest := 7 }, .execRequest .noIterations,
      fromEight .execRequest 0, .msg { action := .execRequest, source := 9, dest := 7 }]).state = .executing := by decide

end ExecEntry
end Verif
