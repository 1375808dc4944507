import Verif.Lemmas.ApiHist
/-!
# C53: starting a call and completing it later is the same as calling

However the thread is scheduled and however often the application asks whether it is done.
-/
namespace Verif
namespace App
variable {core : Core}

/-- What a thread leaves alone. -/
theorem job_same (j : Job) (s : St) : (runJob core j s).2.mode = s.mode ∧ (runJob core j s).2.fut = s.fut ∧ (runJob core j s).2.single = s.single := by
  let P : St → Prop := fun s' => s'.mode = s.mode ∧ s'.fut = s.fut ∧ s'.single = s.single
  have ask : ∀ c, Tri P (App.ask core c) (fun _ => P) P := fun c => Tri.ask (fun s h _ _ => h) (fun s h _ _ _ _ => h)
  have stage : ∀ (n : Nat) (x : Act Unit), Tri P x (fun _ => P) P → Tri P (potStage n x) (fun _ => P) P := by
    intro n x hx
    unfold potStage
    refine Tri.get fun a => Tri.pre ?_ (fun s h => h.1)
    split
    · exact Tri.bind hx (fun _ => Tri.set fun s h => h)
    · exact Tri.pure (fun _ h => h)
  have pot : Tri P (potSequence core) (fun _ => P) P := by
    unfold potSequence
    refine Tri.get fun a => Tri.pre ?_ (fun s h => h.1)
    split
    · refine Tri.bind (stage _ _ (Tri.bind (ask _) fun _ => Tri.pure (fun _ h => h))) fun _ => ?_
      refine Tri.bind (stage _ _ (Tri.bind (ask _) fun _ => Tri.pure (fun _ h => h))) fun _ => ?_
      exact stage _ _ (Tri.bind (ask _) fun _ => Tri.bind (ask _) fun _ => Tri.pure (fun _ h => h))
    · exact Tri.pure (fun _ h => h)
  have job : Tri P (runJob core j) (fun _ => P) P := by
    cases j <;> unfold runJob
    · exact Tri.bind pot fun _ => Tri.bind (ask _) fun _ => Tri.pure fun _ h => h
    · refine Tri.bind pot fun _ => Tri.bind (ask _) fun _ => Tri.bind (ask _) fun _ => ?_
      refine Tri.bind (R := fun _ => P) (Tri.set fun s h => h) fun _ => Tri.bind (R := fun _ => P) (tri_note fun s h => h) fun _ => ?_
      exact Tri.bind (ask _) fun _ => Tri.pure fun _ h => h
    all_goals exact Tri.bind (ask _) fun _ => Tri.pure fun _ h => h
  have := job s ⟨rfl, rfl, rfl⟩
  split at this
  · next e => rw [e]; exact this
  · next e => rw [e]; exact this

/-- Only the thread of `k` works. -/
structure Only (k : Slot) (s : St) : Prop where
  others : ∀ i, i ≠ k → s.fut i = .invalid

theorem work_same (k : Slot) (s : St) : (work core k s).2.mode = s.mode ∧ (work core k s).2.single = s.single := by
  unfold work
  cases s.fut k with
  | todo j => exact ⟨(job_same j s).1, (job_same j s).2.2⟩
  | _ => exact ⟨rfl, rfl⟩

theorem work_fut (k : Slot) (s : St) : (∀ i, i ≠ k → (work core k s).2.fut i = s.fut i) ∧ ∀ j, (work core k s).2.fut k ≠ .todo j := by
  unfold work
  cases hk : s.fut k with
  | todo j =>
    refine ⟨fun i hi => ?_, fun j => ?_⟩
    · simp only [setFut, App.set, if_neg hi, (job_same j s).2.1]
    · simp [setFut, App.set]
  | invalid => exact ⟨fun _ _ => rfl, fun j => by rw [hk]; simp⟩
  | done r => exact ⟨fun _ _ => rfl, fun j => by rw [hk]; simp⟩

theorem work_idle (k : Slot) (s : St) (h : ∀ j, s.fut k ≠ .todo j) : work core k s = (.ok (), s) := by
  unfold work
  cases hk : s.fut k with
  | todo j => exact absurd hk (h j)
  | _ => rfl

theorem work_ok (k : Slot) (s : St) : (work core k s).1 = .ok () := by
  unfold work
  cases s.fut k <;> rfl

theorem take_work (k : Slot) (s : St) : take core k (work core k s).2 = take core k s := by
  unfold take
  simp only [bind_eq, Act.bind]
  have h1 := work_idle (core := core) k (work core k s).2 (work_fut k s).2
  have h2 := work_ok (core := core) k s
  rw [h1]
  generalize work core k s = x at *
  obtain ⟨o, s'⟩ := x
  dsimp only at h2
  subst h2
  rfl

/-- Setting the mode before or after the thread has worked. -/
theorem work_mode (k : Slot) (s : St) (m : Mode) : ({ (work core k s).2 with mode := m } : St) = (work core k { s with mode := m }).2 := by
  rw [Blind.work k s m]

/-- Waiting changes nothing but that the thread gets done. -/
theorem wait_run (k : Slot) (ws : List Op) (hw : ∀ o ∈ ws, o.waits = true) (s : St) (ho : Only k s) :
    run core s ws = s ∨ run core s ws = (work core k s).2 := by
  induction ws generalizing s with
  | nil => exact .inl rfl
  | cons o os ih =>
    have hos : ∀ o ∈ os, o.waits = true := fun o h => hw o (by simp [h])
    have h1 := hw o (by simp)
    have key : (act core o s).2 = s ∨ (act core o s).2 = (work core k s).2 := by
      cases o with
      | isCompleted =>
        left
        have := tri_isCompleted' (fun x => x = s) s rfl
        simp only [act]
        split at this
        · next e => rw [e]; exact this
        · next e => rw [e]; exact this
      | work i =>
        have e : (act core (.work i) s).2 = (work core i s).2 := by
          simp only [act, bind_eq, Act.bind]
          have := work_ok (core := core) i s
          generalize work core i s = x at *
          obtain ⟨o, s'⟩ := x
          dsimp only at this
          subst this
          rfl
        rw [e]
        by_cases hi : i = k
        · subst hi; exact .inr rfl
        · left; rw [work_idle i s (fun j => by rw [ho.others i hi]; simp)]
      | _ => cases h1
    show run core (act core o s).2 os = s ∨ run core (act core o s).2 os = (work core k s).2
    rcases key with e | e
    · rw [e]; exact ih hos s ho
    · right
      rw [e]
      have ho' : Only k (work core k s).2 := ⟨fun i hi => by rw [(work_fut k s).1 i hi]; exact ho.others i hi⟩
      rcases ih hos _ ho' with e' | e'
      · exact e'
      · rw [e', work_idle k _ (work_fut k s).2]

/-- A completion that only looks at the future of `k` does not care whether the thread is done. -/
theorem complete_after (k : Slot) (x : Act Val) (s : St) (hx : x (work core k s).2 = x s) (ho : Only k s) (ws : List Op) (hw : ∀ o ∈ ws, o.waits = true) :
    x (run core s ws) = x s := by
  rcases wait_run k ws hw s ho with e | e
  · rw [e]
  · rw [e, hx]

theorem rethrow_work (k : Slot) (p : Exn → Bool) (oe : Act Unit) (x : Act α) (s : St) (h : x (work core k s).2 = x s) :
    Act.rethrow p oe x (work core k s).2 = Act.rethrow p oe x s := by
  unfold Act.rethrow; rw [h]

theorem bind_take (k : Slot) (f : Val → Act β) (s : St) : (take core k >>= f) (work core k s).2 = (take core k >>= f) s := by
  simp only [bind_eq, Act.bind, take_work]

theorem lock_then (x : Act α) (s s' : St) (hs : s'.single = s.single) (hn : s.single = false) (h : x s' = x s) : (lockAsync >>= fun _ => x) s' = (lockAsync >>= fun _ => x) s := by
  simp only [bind_eq, Act.bind, lockAsync, hs, hn]
  simpa using h

theorem timeComplete_work (s : St) (e : s.mode = .pendingTime) : App.requestTimeComplete core (work core .time s).2 = App.requestTimeComplete core s := by
  unfold App.requestTimeComplete
  have h1 := (work_same (core := core) .time s).1
  show (if (work core .time s).2.mode = .pendingTime then _ else _ : Act Val) (work core .time s).2 = (if s.mode = .pendingTime then _ else _ : Act Val) s
  rw [h1]
  simp only [if_pos e]
  simp only [bind_eq, Act.bind, App.set, work_mode, take_work]

theorem iterComplete_work (s : St) (e : s.mode = .pendingIterTime) : requestTimeIterativeComplete core (work core .iterTime s).2 = requestTimeIterativeComplete core s := by
  unfold requestTimeIterativeComplete
  have h1 := (work_same (core := core) .iterTime s).1
  show (if (work core .iterTime s).2.mode = .pendingIterTime then _ else _ : Act Val) (work core .iterTime s).2 = (if s.mode = .pendingIterTime then _ else _ : Act Val) s
  rw [h1]
  simp only [if_pos e]
  simp only [bind_eq, Act.bind, App.set, work_mode, take_work]

/-- A piece that looks neither at the mode nor at the futures. -/
def Deaf (x : Act α) : Prop := ∀ s m f, x { s with mode := m, fut := f } = ((x s).1, { (x s).2 with mode := m, fut := f })

theorem Deaf.bind {x : Act α} {f : α → Act β} (h1 : Deaf x) (h2 : ∀ a, Deaf (f a)) : Deaf (x >>= f) := by
  intro s m g
  simp only [bind_eq, Act.bind]
  rw [h1 s m g]
  generalize x s = r
  obtain ⟨o, s'⟩ := r
  cases o with
  | ok a => exact h2 a s' m g
  | _ => rfl
theorem Deaf.pure (a : α) : Deaf (pure a : Act α) := fun _ _ _ => rfl
theorem Deaf.set {f : St → St} (h : ∀ s m g, f { s with mode := m, fut := g } = { f s with mode := m, fut := g }) : Deaf (App.set f) := fun s m g => by
  unfold App.set; dsimp only; rw [h s m g]
theorem Deaf.ask (c : Call) : Deaf (App.ask core c) := by
  intro s m g
  unfold App.ask
  dsimp only
  cases core (s.calls ++ [c]) <;> rfl
theorem Deaf.get {f : St → Act β} (h : ∀ s, Deaf (f s)) (h' : ∀ s m g, f { s with mode := m, fut := g } = f s) : Deaf (App.get >>= f) := by
  intro s m g
  show f { s with mode := m, fut := g } { s with mode := m, fut := g } = ((f s s).1, { (f s s).2 with mode := m, fut := g })
  rw [h' s m g]
  exact h s s m g
theorem Deaf.stage (n : Nat) {x : Act Unit} (h : Deaf x) : Deaf (potStage n x) := by
  unfold potStage
  refine Deaf.get (fun s => ?_) (fun _ _ _ => rfl)
  split
  · exact Deaf.bind h fun _ => Deaf.set fun _ _ _ => rfl
  · exact Deaf.pure _
theorem Deaf.pot : Deaf (potSequence core) := by
  unfold potSequence
  refine Deaf.get (fun s => ?_) (fun _ _ _ => rfl)
  split
  · refine Deaf.bind (Deaf.stage _ (Deaf.bind (Deaf.ask _) fun _ => Deaf.pure _)) fun _ => ?_
    refine Deaf.bind (Deaf.stage _ (Deaf.bind (Deaf.ask _) fun _ => Deaf.pure _)) fun _ => ?_
    exact Deaf.stage _ (Deaf.bind (Deaf.ask _) fun _ => Deaf.bind (Deaf.ask _) fun _ => Deaf.pure _)
  · exact Deaf.pure _
theorem Deaf.job (j : Job) : Deaf (runJob core j) := by
  cases j <;> unfold runJob
  · exact Deaf.bind Deaf.pot fun _ => Deaf.bind (Deaf.ask _) fun _ => Deaf.pure _
  · refine Deaf.bind Deaf.pot fun _ => Deaf.bind (Deaf.ask _) fun _ => Deaf.bind (Deaf.ask _) fun _ => ?_
    refine Deaf.bind (Deaf.set fun _ _ _ => rfl) fun _ => Deaf.bind (Deaf.set fun _ _ _ => rfl) fun _ => ?_
    exact Deaf.bind (Deaf.ask _) fun _ => Deaf.pure _
  all_goals exact Deaf.bind (Deaf.ask _) fun _ => Deaf.pure _

/-- Waiting for a thread that was started in the state `s`. -/
theorem take_started (k : Slot) (j : Job) (s : St) (m : Mode) (hf : ∀ i, s.fut i = .invalid) :
    take core k { s with mode := m, fut := fun i => if i = k then .todo j else s.fut i } = ((runJob core j s).1, { (runJob core j s).2 with mode := m }) := by
  unfold take
  simp only [bind_eq, Act.bind, work, if_true]
  rw [Deaf.job j s m]
  have h2 := (job_same (core := core) j s).2.1
  generalize runJob core j s = x at *
  obtain ⟨o, s'⟩ := x
  dsimp only at h2
  simp only [setFut, App.set, App.get, if_true, bind_eq, Act.bind]
  have : (fun i => if i = k then Future.invalid else if i = k then Future.done o else if i = k then Future.todo j else s.fut i) = s'.fut := by
    rw [h2]; funext i; by_cases e : i = k
    · simp [e, hf]
    · simp [e]
  rw [this]

/-- The core never throws. -/
def Kind (core : Core) : Prop := ∀ calls e, core calls ≠ .throws e

/-- No operation is pending. -/
def AtRest (s : St) : Prop := ∀ k, s.fut k = .invalid

theorem only_of (k : Slot) (f : Slot → Future) (s : St) (h : AtRest s) (e : ∀ i, i ≠ k → f i = s.fut i) : ∀ i, i ≠ k → f i = .invalid :=
  fun i hi => (e i hi).trans (h i)

/-- The state in which a thread has been started. -/
def begun (k : Slot) (j : Job) (m : Mode) (s : St) : St := { s with mode := m, fut := fun i => if i = k then .todo j else s.fut i }

theorem begun_only (k : Slot) (j : Job) (m : Mode) (s : St) (h : AtRest s) : Only k (begun k j m s) := ⟨fun i hi => by simp [begun, hi, h i]⟩

theorem begun_mode (k : Slot) (j : Job) (m : Mode) (s : St) : (begun k j m s).mode = m := rfl

theorem take_begun (k : Slot) (j : Job) (m : Mode) (s : St) (hf : AtRest s) :
    take core k (begun k j m s) = ((runJob core j s).1, { (runJob core j s).2 with mode := m }) := take_started k j s m hf

/-- An iterative time request: starting it and completing it later is the same as requesting. -/
theorem C53_iterative (core : Core) (s : St) (t : Time) (it : Iter) (hm : s.mode = .executing) (hs : s.single = false) (hf : AtRest s)
    (ws : List Op) (hw : ∀ o ∈ ws, o.waits = true) :
    act core .requestIterComplete (run core (act core (.requestIterAsync t it) s).2 ws) = act core (.requestIter t it) s := by
  have e1 : (act core (.requestIterAsync t it) s).2 =
      begun .iterTime (.timeRequestIter t it) .pendingIterTime { s with notes := s.notes ++ [Note.requestEntry s.now t (decide (it ≠ Iter.no))] } := by
    simp [act, requestTimeIterativeAsync, bind_eq, Act.bind, App.get, App.set, hs, hm, preTimeRequest, App.note, launch, setFut, pure_eq, begun]
  have hf0 : AtRest { s with notes := s.notes ++ [Note.requestEntry s.now t (decide (it ≠ Iter.no))] } := hf
  rw [e1]
  simp only [act]
  rw [complete_after .iterTime _ _ (iterComplete_work _ rfl) (begun_only _ _ _ _ hf0) ws hw]
  simp only [requestTimeIterativeComplete, requestTimeIterative, bind_eq, Act.bind, App.get, App.set, hm, if_true, preTimeRequest, App.note, begun]
  rw [take_started (s := { s with notes := s.notes ++ [Note.requestEntry s.now t (decide (it ≠ Iter.no))] }) (hf := hf0)]
  simp only [runJob, bind_eq, Act.bind, App.ask, pure_eq]
  cases core (s.calls ++ [.timeRequestIter t it]) with
  | throws e => simp [hm]
  | gives b t' r => simp [hm, Val.toIter]

/-- A time request: the same, when the federate does not repeat requests by itself and the core does not fail (see `C53_time_fails` for that). -/
theorem C53_time (core : Core) (s : St) (t : Time) (fuel : Nat) (hm : s.mode = .executing) (hs : s.single = false) (hf : AtRest s) (hr : s.retrigger = false)
    (hc : ∀ calls e, core calls = .throws e → requestCaught e = false) (ws : List Op) (hw : ∀ o ∈ ws, o.waits = true) :
    act core .requestTimeComplete (run core (act core (.requestTimeAsync t) s).2 ws) = act core (.requestTime (fuel + 1) t) s := by
  have e1 : (act core (.requestTimeAsync t) s).2 =
      begun .time (.timeRequest t) .pendingTime { s with notes := s.notes ++ [Note.requestEntry s.now t false] } := by
    simp [act, App.requestTimeAsync, bind_eq, Act.bind, App.get, App.set, hs, hm, preTimeRequest, App.note, launch, setFut, pure_eq, begun]
  have hf0 : AtRest { s with notes := s.notes ++ [Note.requestEntry s.now t false] } := hf
  rw [e1]
  simp only [act]
  rw [complete_after .time _ _ (timeComplete_work _ rfl) (begun_only _ _ _ _ hf0) ws hw]
  simp only [App.requestTimeComplete, App.requestTime, App.requestLoop, bind_eq, Act.bind, App.get, App.set, hm, if_true, preTimeRequest, App.note, begun, Act.rethrow]
  rw [take_started (s := { s with notes := s.notes ++ [Note.requestEntry s.now t false] }) (hf := hf0)]
  simp only [runJob, bind_eq, Act.bind, App.ask, pure_eq]
  cases hcc : core (s.calls ++ [.timeRequest t]) with
  | throws e => simp [hm, hc _ _ hcc]
  | gives b t' r =>
    simp only [Val.toTime, hm]
    generalize hx : postTimeRequest t' false _ = x
    have hok : x.1 = .ok () ∧ x.2.retrigger = false := by
      rw [← hx]
      simp only [postTimeRequest, updateSimulationTime, bind_eq, Act.bind, App.get, App.set, App.note]
      by_cases e : t' ≥ cTerm
      · simp [e, updateMode_eq, hr]
      · simp [e, pure_eq, hr]
    obtain ⟨o, s'⟩ := x
    obtain ⟨h1, h2⟩ := hok
    dsimp only at h1 h2
    subst h1
    simp [h2, pure_eq]

/-! The other completions do not care either whether the thread is done. -/

theorem initPending_work (s : St) (hn : s.single = false) : completePendingInit core (work core .init s).2 = completePendingInit core s := by
  unfold completePendingInit
  refine lock_then _ _ _ (work_same _ _).2 hn ?_
  exact rethrow_work _ _ _ _ _ (bind_take _ _ _)

theorem initComplete_work (s : St) (e : s.mode = .pendingInit) (hn : s.single = false) :
    enterInitializingModeComplete core (work core .init s).2 = enterInitializingModeComplete core s := by
  unfold enterInitializingModeComplete
  have h1 := work_same (core := core) .init s
  simp only [bind_eq, Act.bind, App.get, h1.1, h1.2, hn, e]
  exact initPending_work s hn

theorem execPending_work (s : St) (hn : s.single = false) : completePendingExec core (work core .exec s).2 = completePendingExec core s := by
  unfold completePendingExec
  refine lock_then _ _ _ (work_same _ _).2 hn ?_
  exact rethrow_work _ _ _ _ _ (bind_take _ _ _)

theorem execComplete_work (s : St) (e : s.mode = .pendingExec) (hn : s.single = false) :
    enterExecutingModeComplete core (work core .exec s).2 = enterExecutingModeComplete core s := by
  unfold enterExecutingModeComplete
  have h1 := work_same (core := core) .exec s
  simp only [bind_eq, Act.bind, App.get, h1.1, h1.2, hn, e]
  exact execPending_work s hn

theorem iterInitComplete_work (s : St) (e : s.mode = .pendingIterInit) (hn : s.single = false) :
    App.iterInitComplete core (work core .iterInit s).2 = App.iterInitComplete core s := by
  unfold App.iterInitComplete
  have h1 := work_same (core := core) .iterInit s
  show (match (work core .iterInit s).2.mode with | .pendingIterInit => _ | .startup => _ | _ => _ : Act Val) (work core .iterInit s).2 = (match s.mode with | .pendingIterInit => _ | .startup => _ | _ => _ : Act Val) s
  rw [h1.1, e]
  refine lock_then _ _ _ (work_same _ _).2 hn ?_
  exact rethrow_work _ _ _ _ _ (bind_take _ _ _)

theorem finalizeComplete_work (s : St) (e : s.mode = .pendingFinalize) (hn : s.single = false) :
    App.finalizeComplete core (work core .finalize s).2 = App.finalizeComplete core s := by
  unfold App.finalizeComplete
  have h1 := work_same (core := core) .finalize s
  simp only [bind_eq, Act.bind, App.get, h1.1, h1.2, hn, e, if_true]
  unfold completePendingFinalize
  exact lock_then _ _ _ (work_same _ _).2 hn (bind_take _ _ _)

/-- What is thrown comes from the core; there is no other failure. -/
def Src (core : Core) (x : Act α) : Prop := ∀ s, (∃ a, (x s).1 = .ok a) ∨ ∃ e calls, (x s).1 = .throws e ∧ core calls = .throws e

theorem Src.bind {x : Act α} {f : α → Act β} (h1 : Src core x) (h2 : ∀ a, Src core (f a)) : Src core (x >>= f) := by
  intro s
  simp only [bind_eq, Act.bind]
  have h1' := h1 s
  generalize x s = r at *
  obtain ⟨o, s'⟩ := r
  rcases h1' with ⟨a, rfl⟩ | ⟨e, c, rfl, hc⟩
  · exact h2 a s'
  · exact .inr ⟨e, c, rfl, hc⟩
theorem Src.pure (a : α) : Src core (pure a : Act α) := fun _ => .inl ⟨a, rfl⟩
theorem Src.set (f : St → St) : Src core (App.set f) := fun _ => .inl ⟨(), rfl⟩
theorem Src.ask (c : Call) : Src core (App.ask core c) := by
  intro s
  unfold App.ask
  dsimp only
  cases hc : core (s.calls ++ [c]) with
  | throws e' => exact .inr ⟨e', _, rfl, hc⟩
  | gives b t r => exact .inl ⟨_, rfl⟩
theorem Src.get {f : St → Act β} (h : ∀ s, Src core (f s)) : Src core (App.get >>= f) := fun s => h s s
theorem Src.stage (n : Nat) {x : Act Unit} (h : Src core x) : Src core (potStage n x) := by
  unfold potStage
  refine Src.get (fun s => ?_)
  split
  · exact Src.bind h fun _ => Src.set _
  · exact Src.pure _
theorem Src.pot : Src core (potSequence core) := by
  unfold potSequence
  refine Src.get (fun s => ?_)
  split
  · refine Src.bind (Src.stage _ (Src.bind (Src.ask _) fun _ => Src.pure _)) fun _ => ?_
    refine Src.bind (Src.stage _ (Src.bind (Src.ask _) fun _ => Src.pure _)) fun _ => ?_
    exact Src.stage _ (Src.bind (Src.ask _) fun _ => Src.bind (Src.ask _) fun _ => Src.pure _)
  · exact Src.pure _
theorem Src.job (j : Job) : Src core (runJob core j) := by
  cases j <;> unfold runJob
  · exact Src.bind Src.pot fun _ => Src.bind (Src.ask _) fun _ => Src.pure _
  · refine Src.bind Src.pot fun _ => Src.bind (Src.ask _) fun _ => Src.bind (Src.ask _) fun _ => ?_
    refine Src.bind (Src.set _) fun _ => Src.bind (Src.set _) fun _ => ?_
    exact Src.bind (Src.ask _) fun _ => Src.pure _
  all_goals exact Src.bind (Src.ask _) fun _ => Src.pure _
theorem Src.enteringInit (r : Result) : Src core (App.enteringInit core r) := by
  unfold App.enteringInit
  refine Src.bind (Src.set _) fun _ => Src.bind (Src.ask _) fun _ => Src.bind (Src.set _) fun _ => ?_
  refine Src.bind ?_ fun _ => Src.set _
  split
  · exact Src.set _
  · exact Src.pure _
theorem Src.enteringExec (t : Time) (r : Result) : Src core (App.enteringExec core t r) := by
  unfold App.enteringExec
  cases r
  · exact Src.bind (Src.set _) fun _ => Src.bind (Src.set _) fun _ => Src.bind (Src.set _) fun _ => Src.bind (Src.set _) fun _ => Src.set _
  · exact Src.set _
  · exact Src.set _
  · exact Src.bind (Src.set _) fun _ => Src.bind (Src.enteringInit _) fun _ => Src.set _

theorem enteringInit_from (r : Result) (s : St) (m m' : Mode) (h : emit .initializing m = emit .initializing m') :
    enteringInit core r { s with mode := m } = enteringInit core r { s with mode := m' } := by
  simp only [enteringInit, bind_eq, Act.bind, updateMode_eq, h]

theorem enteringExec_from (t : Time) (r : Result) (s : St) :
    enteringExec core t r { s with mode := .pendingExec } = enteringExec core t r { s with mode := .initializing } := by
  unfold enteringExec
  cases r with
  | nextStep => simp only [bind_eq, Act.bind, updateMode_eq]; rfl
  | error => simp only [updateMode_eq]; rfl
  | halted => simp only [updateMode_eq]; rfl
  | iterating =>
    simp only [bind_eq, Act.bind, App.set]
    rw [show enteringInit core .iterating { ({ s with now := initializationTime } : St) with mode := .pendingExec } = enteringInit core .iterating { ({ s with now := initializationTime } : St) with mode := .initializing } from enteringInit_from _ _ _ _ rfl]

/-- The request for initializing mode, as what the thread would do followed by what the completion would do. -/
theorem enterInit_eq (s : St) : enterInitFromStart core s =
    Act.rethrow Exn.isHelics (updateMode .error) (runJob core .enterInit >>= fun v => (if v = .flag true then enteringInit core .nextStep else pure ()) >>= fun _ => pure Val.unit) s := by
  unfold enterInitFromStart Act.rethrow
  have : (potSequence core >>= fun _ => App.ask core (.enterInit .no) >>= fun a => (if a.1 = true then enteringInit core .nextStep else pure ()) >>= fun _ => (pure Val.unit : Act Val)) =
      (runJob core .enterInit >>= fun v => (if v = .flag true then enteringInit core .nextStep else pure ()) >>= fun _ => pure Val.unit) := by
    unfold runJob
    rw [bind_assoc']
    congr 1; funext _
    rw [bind_assoc']
    congr 1; funext a
    funext s
    simp only [bind_eq, Act.bind, pure_eq]
    cases a.1 <;> simp
  show (match (potSequence core >>= fun _ => App.ask core (.enterInit .no) >>= fun a => (if a.1 = true then enteringInit core .nextStep else pure ()) >>= fun _ => (pure Val.unit : Act Val)) s with | _ => _) = _
  rw [this]

/-- The entry to initializing mode: the same, when requests are granted and all exceptions are those of HELICS (see `C53_init_fails` for that). -/
theorem C53_init (core : Core) (s : St) (hm : s.mode = .startup) (hs : s.single = false) (hf : AtRest s) (hg : Grants core)
    (hc : ∀ calls, core calls ≠ .throws .std) (ws : List Op) (hw : ∀ o ∈ ws, o.waits = true) :
    act core .enterInitComplete (run core (act core .enterInitAsync s).2 ws) = act core .enterInit s := by
  have e1 : (act core .enterInitAsync s).2 = begun .init .enterInit .pendingInit s := by
    simp [act, enterInitializingModeAsync, bind_eq, Act.bind, App.get, App.set, hs, hm, launch, setFut, pure_eq, begun]
  have hs' : (begun .init .enterInit .pendingInit s).single = false := hs
  rw [e1]
  simp only [act]
  rw [complete_after .init _ _ (initComplete_work _ rfl hs') (begun_only _ _ _ _ hf) ws hw]
  have e2 : enterInitializingMode core s = enterInitFromStart core s := by
    simp only [enterInitializingMode, bind_eq, Act.bind, App.get, hm]
  rw [e2, enterInit_eq]
  simp only [enterInitializingModeComplete, bind_eq, Act.bind, App.get, begun_mode, hs', completePendingInit, lockAsync, Act.rethrow, take_begun (hf := hf), Bool.false_eq_true, if_false]
  have hj := (job_same (core := core) .enterInit s).1
  have hsrc := Src.job (core := core) .enterInit s
  have hv : ∀ v, (runJob core .enterInit s).1 = .ok v → v = .flag true := by
    intro v e
    have L : Lax (fun _ : St => True) := ⟨fun _ _ _ _ _ _ => trivial, fun _ _ _ _ => trivial⟩
    have := L.job (core := core) .enterInit s trivial
    split at this
    · next e' => rw [e'] at e; cases e; exact this.2 rfl hg
    · next o s' hne e' => rw [e'] at e; exact absurd e (hne v)
  generalize runJob core .enterInit s = x at *
  obtain ⟨o, s'⟩ := x
  rw [hm] at hj
  dsimp only at hj hsrc hv ⊢
  have hs0 : s' = { s' with mode := .startup } := by cases s'; cases hj; rfl
  rcases hsrc with ⟨v, rfl⟩ | ⟨e, c, rfl, hcc⟩
  · have := hv v rfl
    subst this
    simp only [if_true]
    rw [enteringInit_from .nextStep s' .pendingInit .startup rfl, ← hs0]
    have hsi := Src.enteringInit (core := core) .nextStep s'
    generalize enteringInit core .nextStep s' = y at *
    obtain ⟨o, s2⟩ := y
    rcases hsi with ⟨a, ha⟩ | ⟨e, c, ha, hcc⟩
    · dsimp only at ha; subst ha; rfl
    · dsimp only at ha; subst ha
      have he : Exn.isHelics e = true := by cases e <;> first | rfl | exact absurd hcc (hc c)
      simp [anyExn, he]
  · have he : Exn.isHelics e = true := by cases e <;> first | rfl | exact absurd hcc (hc c)
    simp only [anyExn, he, if_true, updateMode_eq]
    rw [hj]
    rfl

/-- An iteration of the initialization: the same, when there are no potential interfaces to be offered and the core does not fail (see `C53_again_fails`). -/
theorem C53_again (core : Core) (s : St) (hm : s.mode = .startup) (hs : s.single = false) (hf : AtRest s) (hp : s.pot = false) (hc : Kind core)
    (ws : List Op) (hw : ∀ o ∈ ws, o.waits = true) :
    act core .iterInitComplete (run core (act core .iterInitAsync s).2 ws) = act core .iterInit s := by
  have e1 : (act core .iterInitAsync s).2 = begun .iterInit .iterInit .pendingIterInit s := by
    simp [act, App.iterInitAsync, bind_eq, Act.bind, App.get, App.set, hs, hm, launch, setFut, pure_eq, begun, lockAsync]
  have hs' : (begun .iterInit .iterInit .pendingIterInit s).single = false := hs
  rw [e1]
  simp only [act]
  rw [complete_after .iterInit _ _ (iterInitComplete_work _ rfl hs') (begun_only _ _ _ _ hf) ws hw]
  simp only [App.iterInitComplete, App.iterInit, bind_eq, Act.bind, App.get, hm, hs', begun_mode, lockAsync, Act.rethrow, take_begun (hf := hf), Bool.false_eq_true, if_false]
  simp only [hp, Bool.false_eq_true, if_false, false_and, runJob, bind_eq, Act.bind, App.ask]
  cases hcc : core (s.calls ++ [.enterInit .force]) with
  | throws e => exact absurd hcc (hc _ _)
  | gives b t r =>
    simp only [pure_eq, updateMode_eq]
    rw [show emit Mode.startup Mode.pendingIterInit = [] from rfl, List.append_nil]
    cases s; cases hm; rfl

/-- The entry to executing mode: the same, when the core does not fail (see `C53_exec_fails`). -/
theorem C53_exec (core : Core) (s : St) (it : Iter) (hm : s.mode = .initializing) (hs : s.single = false) (hf : AtRest s) (hc : Kind core)
    (ws : List Op) (hw : ∀ o ∈ ws, o.waits = true) :
    act core .enterExecComplete (run core (act core (.enterExecAsync it) s).2 ws) = act core (.enterExec it) s := by
  have e1 : (act core (.enterExecAsync it) s).2 = begun .exec (.enterExec it) .pendingExec s := by
    simp [act, enterExecutingModeAsync, launchExec, bind_eq, Act.bind, App.get, updateMode_eq, App.set, hs, hm, launch, setFut, pure_eq, begun, emit, Mode.silent]
  have hs' : (begun .exec (.enterExec it) .pendingExec s).single = false := hs
  rw [e1]
  simp only [act]
  rw [complete_after .exec _ _ (execComplete_work _ rfl hs') (begun_only _ _ _ _ hf) ws hw]
  simp only [enterExecutingModeComplete, enterExecutingMode, execFromInit, completePendingExec, bind_eq, Act.bind, App.get, hm, hs', begun_mode, lockAsync, Act.rethrow, take_begun (hf := hf), Bool.false_eq_true, if_false]
  simp only [runJob, bind_eq, Act.bind, App.ask]
  cases hcc : core (s.calls ++ [.enterExec it]) with
  | throws e => exact absurd hcc (hc _ _)
  | gives b t r =>
    simp only [pure_eq, Val.toIter]
    have e2 := enteringExec_from (core := core) t r { s with calls := s.calls ++ [.enterExec it] }
    have e3 : ({ ({ s with calls := s.calls ++ [.enterExec it] } : St) with mode := .initializing } : St) = { s with calls := s.calls ++ [.enterExec it] } := by
      cases s; cases hm; rfl
    rw [e3] at e2
    rw [e2]
    have hsi := Src.enteringExec (core := core) t r { s with calls := s.calls ++ [.enterExec it] }
    generalize enteringExec core t r { s with calls := s.calls ++ [.enterExec it] } = y at *
    obtain ⟨o, s2⟩ := y
    rcases hsi with ⟨a, ha⟩ | ⟨e, c, ha, hcc⟩
    · dsimp only at ha; subst ha; rfl
    · exact absurd hcc (hc _ _)

/-- The end: the same, in executing mode, when the core does not fail (see `C53_finalize_fails`). -/
theorem C53_finalize (core : Core) (s : St) (hm : s.mode = .executing) (hs : s.single = false) (hf : AtRest s) (hc : Kind core)
    (ws : List Op) (hw : ∀ o ∈ ws, o.waits = true) :
    act core .finalizeComplete (run core (act core .finalizeAsync s).2 ws) = act core .finalize s := by
  have e1 : (act core .finalizeAsync s).2 = begun .finalize .finalize .pendingFinalize s := by
    simp [act, App.finalizeAsync, launchFinalize, bind_eq, Act.bind, App.get, updateMode_eq, App.set, hs, hm, launch, setFut, pure_eq, begun, emit, Mode.silent]
  have hs' : (begun .finalize .finalize .pendingFinalize s).single = false := hs
  rw [e1]
  simp only [act]
  rw [complete_after .finalize _ _ (finalizeComplete_work _ rfl hs') (begun_only _ _ _ _ hf) ws hw]
  simp only [App.finalizeComplete, App.finalize, finalizeNow, completePendingFinalize, bind_eq, Act.bind, App.get, hm, hs', begun_mode, lockAsync, if_true, take_begun (hf := hf), Bool.false_eq_true, if_false]
  simp only [runJob, bind_eq, Act.bind, App.ask]
  cases hcc : core (s.calls ++ [.finalize]) with
  | throws e => exact absurd hcc (hc _ _)
  | gives b t r =>
    simp only [pure_eq, updateMode_eq, hm]
    rfl

/-- The end from other modes: the same but for what the mode callback is told. -/
theorem C53_finalize_any (core : Core) (s : St) (hm : s.mode = .startup ∨ s.mode = .initializing ∨ s.mode = .finished ∨ s.mode = .executing) (hs : s.single = false)
    (hf : AtRest s) (hc : Kind core) (ws : List Op) (hw : ∀ o ∈ ws, o.waits = true) :
    let a := act core .finalizeComplete (run core (act core .finalizeAsync s).2 ws)
    let b := act core .finalize s
    a.1 = b.1 ∧ { a.2 with notes := [] } = { b.2 with notes := [] } := by
  have e1 : (act core .finalizeAsync s).2 = begun .finalize .finalize .pendingFinalize s := by
    rcases hm with hm | hm | hm | hm <;>
    simp [act, App.finalizeAsync, launchFinalize, bind_eq, Act.bind, App.get, updateMode_eq, App.set, hs, hm, launch, setFut, pure_eq, begun, emit, Mode.silent]
  have hs' : (begun .finalize .finalize .pendingFinalize s).single = false := hs
  have e2 : App.finalize core s = finalizeNow core s := by
    rcases hm with hm | hm | hm | hm <;> simp only [App.finalize, bind_eq, Act.bind, App.get, hm]
  intro a b
  simp only [a, b]
  rw [e1]
  simp only [act, e2]
  rw [complete_after .finalize _ _ (finalizeComplete_work _ rfl hs') (begun_only _ _ _ _ hf) ws hw]
  simp only [App.finalizeComplete, finalizeNow, completePendingFinalize, bind_eq, Act.bind, App.get, hs', begun_mode, lockAsync, if_true, take_begun (hf := hf), Bool.false_eq_true, if_false]
  simp only [runJob, bind_eq, Act.bind, App.ask]
  cases hcc : core (s.calls ++ [.finalize]) with
  | throws e => exact absurd hcc (hc _ _)
  | gives b t r =>
    simp only [pure_eq, updateMode_eq]
    exact ⟨trivial, trivial⟩

/-- From startup mode straight to executing mode: the same but for what the callbacks are told (see `C54_story_fails`). -/
theorem C53_exec_start (core : Core) (s : St) (it : Iter) (hm : s.mode = .startup) (hs : s.single = false) (hf : AtRest s) (hg : Grants core) (hc : Kind core)
    (ws : List Op) (hw : ∀ o ∈ ws, o.waits = true) :
    let a := act core .enterExecComplete (run core (act core (.enterExecAsync it) s).2 ws)
    let b := act core (.enterExec it) s
    a.1 = b.1 ∧ { a.2 with notes := [] } = { b.2 with notes := [] } := by
  have e1 : (act core (.enterExecAsync it) s).2 = begun .exec (.enterExecFromStart it) .pendingExec s := by
    simp [act, enterExecutingModeAsync, launchExec, bind_eq, Act.bind, App.get, updateMode_eq, App.set, hs, hm, launch, setFut, pure_eq, begun, emit, Mode.silent]
  have hs' : (begun .exec (.enterExecFromStart it) .pendingExec s).single = false := hs
  intro a b
  simp only [a, b]
  rw [e1]
  simp only [act]
  rw [complete_after .exec _ _ (execComplete_work _ rfl hs') (begun_only _ _ _ _ hf) ws hw]
  simp only [enterExecutingModeComplete, enterExecutingMode, enterInitializingMode, execFromInit, completePendingExec, bind_eq, Act.bind, App.get, hm, hs', begun_mode, lockAsync, Act.rethrow, take_begun (hf := hf), Bool.false_eq_true, if_false,
    enterInitFromStart]
  simp only [runJob, bind_eq, Act.bind]
  have hp := Src.pot (core := core) s
  generalize potSequence core s = x at *
  obtain ⟨o, s1⟩ := x
  have ho : ∃ u, o = .ok u := by
    rcases hp with ⟨u, h⟩ | ⟨e, c, h, hcc⟩
    · exact ⟨u, h⟩
    · exact absurd hcc (hc _ _)
  obtain ⟨u, rfl⟩ := ho
  simp only [App.ask]
  cases h1 : core (s1.calls ++ [.enterInit .no]) with
  | throws e => exact absurd h1 (hc _ _)
  | gives b1 t1 r1 =>
    have := hg _ _ _ _ h1
    subst this
    simp only [if_true, enteringInit, bind_eq, Act.bind, updateMode_eq, App.ask]
    cases h2 : core (s1.calls ++ [.enterInit .no] ++ [.currentTime]) with
    | throws e => exact absurd h2 (hc _ _)
    | gives b2 t2 r2 =>
      simp only [App.set, App.note, pure_eq, if_true]
      cases h3 : core (s1.calls ++ [.enterInit .no] ++ [.currentTime] ++ [.enterExec it]) with
      | throws e => exact absurd h3 (hc _ _)
      | gives b3 t3 r3 =>
        simp only [Val.toIter]
        cases r3 with
        | nextStep => exact ⟨rfl, rfl⟩
        | error => exact ⟨rfl, rfl⟩
        | halted => exact ⟨rfl, rfl⟩
        | iterating =>
          simp only [enteringExec, enteringInit, bind_eq, Act.bind, updateMode_eq, App.ask, App.set, App.note]
          cases h4 : core (s1.calls ++ [.enterInit .no] ++ [.currentTime] ++ [.enterExec it] ++ [.currentTime]) with
          | throws e => exact absurd h4 (hc _ _)
          | gives b4 t4 r4 => exact ⟨rfl, rfl⟩

end App
end Verif
