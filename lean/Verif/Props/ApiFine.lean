import Verif.Props.ApiAsync
import Verif.Props.Api
/-!
# C52: what is permitted is done

A core that never throws and grants every request to enter initializing mode: every call that may be made is carried out.  Also, what is returned by a time request
is what the core has answered, and is the current time from then on.
-/
namespace Verif
namespace App
variable {core : Core}

/-- A pending mode has a thread that works for it, or the answer of such a thread. -/
def Held (s : St) : Prop := ∀ k : Slot, s.mode = k.pend →
  (∃ j, s.fut k = .todo j ∧ (k = .init → j = .enterInit)) ∨ (∃ v, s.fut k = .done (.ok v) ∧ (k = .init → v = .flag true))

/-- No operation is pending in this mode. -/
def Mode.calm (m : Mode) : Prop := ∀ k : Slot, m ≠ k.pend

theorem Held.calm {s : St} (h : s.mode.calm) : Held s := fun k e => absurd e (h k)

theorem ask_ok (hK : Kind core) (c : Call) (s : St) : ∃ b t r, core (s.calls ++ [c]) = .gives b t r ∧ ask core c s = (.ok (b, t, r), { s with calls := s.calls ++ [c] }) := by
  cases h : core (s.calls ++ [c]) with
  | throws e => exact absurd h (hK _ _)
  | gives b t r => exact ⟨b, t, r, rfl, by simp [ask, h]⟩

/-- The piece returns; mode and futures stay. -/
def Quiet (x : Act α) : Prop := ∀ s, ∃ a s', x s = (.ok a, s') ∧ s'.mode = s.mode ∧ s'.fut = s.fut

theorem Quiet.bind {x : Act α} {f : α → Act β} (h : Quiet x) (h2 : ∀ a, Quiet (f a)) : Quiet (x >>= f) := by
  intro s
  obtain ⟨a, s1, e1, m1, f1⟩ := h s
  obtain ⟨b, s2, e2, m2, f2⟩ := h2 a s1
  exact ⟨b, s2, by rw [bind_eq]; simp only [Act.bind, e1]; exact e2, m2.trans m1, f2.trans f1⟩

theorem Quiet.pure (a : α) : Quiet (pure a : Act α) := fun s => ⟨a, s, rfl, rfl, rfl⟩
theorem Quiet.get : Quiet App.get := fun s => ⟨s, s, rfl, rfl, rfl⟩
theorem Quiet.ask (hK : Kind core) (c : Call) : Quiet (App.ask core c) := fun s => by
  obtain ⟨b, t, r, _, e⟩ := ask_ok hK c s
  exact ⟨_, _, e, rfl, rfl⟩
theorem Quiet.note (n : Note) : Quiet (App.note n) := fun _ => ⟨_, _, rfl, rfl, rfl⟩
theorem Quiet.ite {c : Prop} [Decidable c] {x y : Act α} (hx : Quiet x) (hy : Quiet y) : Quiet (if c then x else y) := by
  split <;> assumption

theorem Quiet.stage (n : Nat) {x : Act Unit} (hx : Quiet x) : Quiet (potStage n x) := by
  unfold potStage
  refine Quiet.get.bind fun s => Quiet.ite (hx.bind fun _ => ?_) (Quiet.pure _)
  exact fun s => ⟨_, _, rfl, rfl, rfl⟩

theorem Quiet.pot (hK : Kind core) : Quiet (potSequence core) := by
  unfold potSequence
  refine Quiet.get.bind fun s => Quiet.ite ?_ (Quiet.pure _)
  refine (Quiet.stage 0 ((Quiet.ask hK _).bind fun _ => Quiet.pure _)).bind fun _ => ?_
  refine (Quiet.stage 1 ((Quiet.ask hK _).bind fun _ => Quiet.pure _)).bind fun _ => ?_
  exact Quiet.stage 2 ((Quiet.ask hK _).bind fun _ => (Quiet.ask hK _).bind fun _ => Quiet.pure _)

theorem Quiet.job (hK : Kind core) (j : Job) : Quiet (runJob core j) := by
  have hset : ∀ t, Quiet (App.set fun s => { s with now := t }) := fun t s => ⟨_, _, rfl, rfl, rfl⟩
  cases j with
  | enterInit => exact (Quiet.pot hK).bind fun _ => (Quiet.ask hK _).bind fun _ => Quiet.pure _
  | enterExecFromStart it =>
    exact (Quiet.pot hK).bind fun _ => (Quiet.ask hK _).bind fun _ => (Quiet.ask hK _).bind fun _ => (hset _).bind fun _ =>
      (Quiet.note _).bind fun _ => (Quiet.ask hK _).bind fun _ => Quiet.pure _
  | _ => exact (Quiet.ask hK _).bind fun _ => Quiet.pure _

/-- What the thread for the entry to initializing mode brings. -/
theorem job_init (hK : Kind core) (hg : Grants core) (s : St) : ∃ s', runJob core .enterInit s = (.ok (.flag true), s') ∧ s'.mode = s.mode ∧ s'.fut = s.fut := by
  obtain ⟨a, s1, e1, m1, f1⟩ := Quiet.pot hK s
  obtain ⟨b, t, r, hc, e⟩ := ask_ok hK (.enterInit .no) s1
  have := hg _ _ _ _ hc
  subst this
  refine ⟨_, (by simp only [runJob, bind_eq, Act.bind, e1, e]; rfl), ?_, ?_⟩
  · exact m1
  · exact f1

theorem take_ok (hK : Kind core) (hg : Grants core) {s : St} {k : Slot} (h : Held s) (hm : s.mode = k.pend) :
    ∃ v s', take core k s = (.ok v, s') ∧ s'.mode = s.mode ∧ (k = .init → v = .flag true) := by
  rcases h k hm with ⟨j, hf, hj⟩ | ⟨v, hf, hv⟩
  · by_cases hk : k = .init
    · have := hj hk
      subst this
      obtain ⟨s', e, m, _⟩ := job_init hK hg s
      refine ⟨.flag true, _, (by simp only [take, work, bind_eq, Act.bind, hf, e, setFut, App.set, App.get, if_true]; rfl), ?_, fun _ => rfl⟩
      exact m
    · obtain ⟨v, s', e, m, _⟩ := Quiet.job hK j s
      refine ⟨v, _, (by simp only [take, work, bind_eq, Act.bind, hf, e, setFut, App.set, App.get, if_true]; rfl), ?_, fun e => absurd e hk⟩
      exact m
  · refine ⟨v, _, (by simp only [take, work, bind_eq, Act.bind, hf, setFut, App.set, App.get, if_true]; rfl), ?_, hv⟩
    rfl

theorem work_held (hK : Kind core) (hg : Grants core) {s : St} (k : Slot) (h : Held s) : ∃ s', work core k s = (.ok (), s') ∧ Held s' := by
  cases hf : s.fut k with
  | invalid => exact ⟨s, by simp [work, hf], h⟩
  | done r => exact ⟨s, by simp [work, hf], h⟩
  | todo j =>
    have key : ∀ v s', runJob core j s = (.ok v, s') → s'.mode = s.mode → s'.fut = s.fut → (k = .init → s.mode = .pendingInit → v = .flag true) →
        ∃ s', work core k s = (.ok (), s') ∧ Held s' := by
      intro v s' e m f hv
      refine ⟨_, by simp only [work, hf, e]; rfl, ?_⟩
      intro i hi
      change s'.mode = _ at hi
      rw [m] at hi
      by_cases hik : i = k
      · subst hik
        exact .inr ⟨v, by simp, fun e => hv e (by rw [hi, e]; rfl)⟩
      · have := h i hi
        simp only [hik, if_false, f]
        exact this
    by_cases hk : k = .init ∧ s.mode = .pendingInit
    · rcases h k (by rw [hk.1, hk.2]; rfl) with ⟨j', hf', hj⟩ | ⟨v, hf', _⟩
      · rw [hf] at hf'; cases hf'
        have := hj hk.1
        subst this
        obtain ⟨s', e, m, f⟩ := job_init hK hg s
        exact key _ _ e m f (fun _ _ => rfl)
      · rw [hf] at hf'; cases hf'
    · obtain ⟨v, s', e, m, f⟩ := Quiet.job hK j s
      exact key _ _ e m f (fun a b => absurd ⟨a, b⟩ hk)

/-- The call is carried out: nothing is thrown. -/
def Done (x : Out α × St) : Prop := (∀ e, x.1 ≠ .throws e) ∧ Held x.2

theorem Done.ok {a : α} {s : St} (h : Held s) : Done (.ok a, s) := ⟨(fun _ e => by cases e), h⟩

theorem Done.bind {x : Act α} {f : α → Act β} {s : St} {a : α} {s' : St} (h : x s = (.ok a, s')) (h2 : Done (f a s')) : Done ((x >>= f) s) := by
  rw [bind_eq]; simp only [Act.bind, h]; exact h2

/-- The piece returns, in one of the modes `P`. -/
def Ends (P : Mode → Prop) (x : Out α × St) : Prop := ∃ a s', x = (.ok a, s') ∧ P s'.mode

theorem Ends.bind {P Q : Mode → Prop} {x : Act α} {f : α → Act β} {s : St} (h : Ends P (x s)) (h2 : ∀ a s', P s'.mode → Ends Q (f a s')) : Ends Q ((x >>= f) s) := by
  obtain ⟨a, s', e, hp⟩ := h
  rw [bind_eq]; simp only [Act.bind, e]; exact h2 a s' hp

theorem Ends.of_quiet {P : Mode → Prop} {x : Act α} (h : Quiet x) {s : St} (hp : P s.mode) : Ends P (x s) := by
  obtain ⟨a, s', e, m, _⟩ := h s
  exact ⟨a, s', e, by rw [m]; exact hp⟩

theorem Ends.set {P : Mode → Prop} {f : St → St} {s : St} (h : P (f s).mode) : Ends P (App.set f s) := ⟨_, _, rfl, h⟩
theorem Ends.pure {P : Mode → Prop} {a : α} {s : St} (h : P s.mode) : Ends P ((pure a : Act α) s) := ⟨_, _, rfl, h⟩
theorem Ends.mode {P : Mode → Prop} {m : Mode} {s : St} (h : P m) : Ends P (updateMode m s) := ⟨_, _, updateMode_eq m s, h⟩
theorem Ends.rethrow {P : Mode → Prop} {p : Exn → Bool} {oe : Act Unit} {x : Act α} {s : St} (h : Ends P (x s)) : Ends P (Act.rethrow p oe x s) := by
  obtain ⟨a, s', e, hp⟩ := h
  exact ⟨a, s', by simp only [Act.rethrow, e], hp⟩
theorem Ends.mono {P Q : Mode → Prop} {x : Out α × St} (h : Ends P x) (hq : ∀ m, P m → Q m) : Ends Q x := by
  obtain ⟨a, s', e, hp⟩ := h
  exact ⟨a, s', e, hq _ hp⟩
theorem Ends.done {x : Out α × St} (h : Ends Mode.calm x) : Done x := by
  obtain ⟨a, s', rfl, hp⟩ := h
  exact Done.ok (Held.calm hp)

theorem calm_of (m : Mode) (h : m ≠ .pendingInit ∧ m ≠ .pendingExec ∧ m ≠ .pendingTime ∧ m ≠ .pendingIterTime ∧ m ≠ .pendingFinalize ∧ m ≠ .pendingIterInit) : m.calm := by
  intro k e
  cases k <;> simp [Slot.pend] at e <;> simp [e] at h

theorem Ends.enteringInit (hK : Kind core) (r : Result) (s : St) : Ends (· = .initializing) (enteringInit core r s) := by
  unfold App.enteringInit
  refine Ends.bind (P := (· = .initializing)) (Ends.mode rfl) fun _ s1 h1 => ?_
  refine Ends.bind (P := (· = .initializing)) (Ends.of_quiet (Quiet.ask hK _) h1) fun _ s2 h2 => ?_
  refine Ends.bind (P := (· = .initializing)) (Ends.set h2) fun _ s3 h3 => ?_
  refine Ends.bind (P := (· = .initializing)) (Ends.of_quiet (Quiet.ite (Quiet.note _) (Quiet.pure _)) h3) fun _ s4 h4 => ?_
  exact Ends.of_quiet (Quiet.note _) h4

theorem Ends.enteringExec (hK : Kind core) (t : Time) (r : Result) (s : St) : Ends Mode.calm (enteringExec core t r s) := by
  unfold App.enteringExec
  cases r with
  | error => exact Ends.mode (calm_of _ (by decide))
  | halted => exact Ends.mode (calm_of _ (by decide))
  | iterating =>
    refine Ends.bind (P := fun _ => True) (Ends.set trivial) fun _ s1 _ => ?_
    refine Ends.bind (P := (· = .initializing)) (Ends.enteringInit hK _ _) fun _ s2 h2 => ?_
    exact Ends.of_quiet (Quiet.note _) (by rw [h2]; exact calm_of _ (by decide))
  | nextStep =>
    refine Ends.bind (P := (· = .executing)) (Ends.mode rfl) fun _ s1 h1 => ?_
    refine Ends.bind (P := (· = .executing)) (Ends.set h1) fun _ s2 h2 => ?_
    refine Ends.bind (P := (· = .executing)) (Ends.of_quiet (Quiet.note _) h2) fun _ s3 h3 => ?_
    refine Ends.bind (P := (· = .executing)) (Ends.of_quiet (Quiet.note _) h3) fun _ s4 h4 => ?_
    exact Ends.of_quiet (Quiet.note _) (by rw [h4]; exact calm_of _ (by decide))

theorem Ends.post (t : Time) (i : Bool) (s : St) (h : s.mode.calm) : Ends Mode.calm (postTimeRequest t i s) := by
  unfold postTimeRequest updateSimulationTime
  refine Ends.bind (P := Mode.calm) (Ends.of_quiet Quiet.get h) fun _ s1 h1 => ?_
  refine Ends.bind (P := Mode.calm) ?_ fun _ s2 h2 => Ends.of_quiet (Quiet.note _) h2
  refine Ends.bind (P := Mode.calm) (Ends.set h1) fun _ s2 h2 => ?_
  refine Ends.bind (P := Mode.calm) (Ends.of_quiet (Quiet.note _) h2) fun _ s3 h3 => ?_
  refine Ends.bind (P := Mode.calm) (Ends.of_quiet (Quiet.note _) h3) fun _ s4 h4 => ?_
  split
  · exact Ends.mode (calm_of _ (by decide))
  · exact Ends.pure h4

theorem Ends.afterIterative (t : Time) (r : Result) (s : St) (h : s.mode.calm) : Ends Mode.calm (afterIterative t r s) := by
  unfold App.afterIterative
  refine Ends.bind (P := Mode.calm) ?_ fun _ s1 h1 => Ends.pure h1
  cases r with
  | nextStep => exact Ends.post _ _ _ h
  | iterating => exact Ends.post _ _ _ h
  | error => exact Ends.mode (calm_of _ (by decide))
  | halted =>
    refine Ends.bind (P := Mode.calm) (Ends.mode (calm_of _ (by decide))) fun _ s1 h1 => ?_
    refine Ends.bind (P := Mode.calm) (Ends.of_quiet Quiet.get h1) fun _ s1 h1 => ?_
    unfold updateSimulationTime
    refine Ends.bind (P := Mode.calm) (Ends.set h1) fun _ s2 h2 => ?_
    refine Ends.bind (P := Mode.calm) (Ends.of_quiet (Quiet.note _) h2) fun _ s3 h3 => ?_
    refine Ends.bind (P := Mode.calm) (Ends.of_quiet (Quiet.note _) h3) fun _ s4 h4 => ?_
    split
    · exact Ends.mode (calm_of _ (by decide))
    · exact Ends.pure h4

variable (hK : Kind core) (hg : Grants core)
include hK hg

theorem Ends.take {s : St} (h : Held s) (k : Slot) (hm : s.mode = k.pend) : Ends (· = s.mode) (take core k s) := by
  obtain ⟨v, s', e, m, _⟩ := take_ok hK hg h hm
  exact ⟨v, s', e, m⟩

/-- The future is taken after the mode has been changed. -/
theorem Ends.take' {s : St} (h : Held s) (k : Slot) (hm : s.mode = k.pend) (m : Mode) : Ends (· = m) (App.take core k { s with mode := m }) := by
  rcases h k hm with ⟨j, hf, _⟩ | ⟨v, hf, _⟩
  · obtain ⟨v, s', e, hm', _⟩ := Quiet.job hK j { s with mode := m }
    refine ⟨v, _, (by simp only [App.take, work, bind_eq, Act.bind, hf, e, setFut, App.set, App.get, if_true]; rfl), ?_⟩
    exact hm'
  · exact ⟨v, _, (by simp only [App.take, work, bind_eq, Act.bind, hf, setFut, App.set, App.get, if_true]; rfl), rfl⟩

theorem lock_ok {s : St} (hs : s.single = false) : lockAsync s = (.ok (), s) := by simp [lockAsync, hs]

theorem Ends.pendingInit {s : St} (h : Held s) (hm : s.mode = .pendingInit) (hs : s.single = false) : Ends (· = .initializing) (completePendingInit core s) := by
  unfold completePendingInit
  rw [bind_eq]; simp only [Act.bind, lockAsync, hs, Bool.false_eq_true, if_false]
  obtain ⟨v, s', e, _, hv⟩ := take_ok hK hg h (k := .init) hm
  refine Ends.rethrow ?_
  rw [bind_eq]; simp only [Act.bind, e, hv rfl, if_true]
  exact Ends.bind (Ends.enteringInit hK _ _) fun _ _ h => Ends.pure h

theorem Ends.pendingExec {s : St} (h : Held s) (hm : s.mode = .pendingExec) (hs : s.single = false) : Ends Mode.calm (completePendingExec core s) := by
  unfold completePendingExec
  rw [bind_eq]; simp only [Act.bind, lockAsync, hs, Bool.false_eq_true, if_false]
  refine Ends.rethrow ?_
  refine Ends.bind (Ends.take hK hg h .exec hm) fun v s1 _ => ?_
  exact Ends.bind (Ends.enteringExec hK _ _ _) fun _ _ h => Ends.pure h

theorem Ends.timeComplete {s : St} (h : Held s) (hm : s.mode = .pendingTime) : Ends Mode.calm (App.requestTimeComplete core s) := by
  unfold App.requestTimeComplete
  simp only [bind_eq, Act.bind, App.get, hm, if_true, App.set]
  obtain ⟨v, s', e, m⟩ := Ends.take' hK hg h .time hm .executing
  rw [e]
  exact Ends.bind (x := postTimeRequest v.toTime false) (f := fun _ => Pure.pure (Val.time v.toTime)) (Ends.post _ _ _ (by rw [m]; exact calm_of _ (by decide))) fun _ _ h => Ends.pure h

theorem Ends.iterComplete {s : St} (h : Held s) (hm : s.mode = .pendingIterTime) : Ends Mode.calm (requestTimeIterativeComplete core s) := by
  unfold requestTimeIterativeComplete
  simp only [bind_eq, Act.bind, App.get, hm, if_true, App.set]
  obtain ⟨v, s', e, m⟩ := Ends.take' hK hg h .iterTime hm .executing
  rw [e]
  exact Ends.afterIterative _ _ _ (by rw [m]; exact calm_of _ (by decide))

theorem Ends.pendingFinalize {s : St} (h : Held s) (hm : s.mode = .pendingFinalize) (hs : s.single = false) : Ends Mode.calm (completePendingFinalize core s) := by
  unfold completePendingFinalize
  rw [bind_eq]; simp only [Act.bind, lockAsync, hs, Bool.false_eq_true, if_false]
  refine Ends.bind (Ends.take hK hg h .finalize hm) fun v s1 _ => ?_
  exact Ends.bind (P := Mode.calm) (Ends.mode (calm_of _ (by decide))) fun _ _ h => Ends.pure h

theorem Ends.finalizeNow (s : St) : Ends Mode.calm (finalizeNow core s) := by
  unfold App.finalizeNow
  refine Ends.bind (P := fun _ => True) (Ends.of_quiet (Quiet.ask hK _) trivial) fun _ s1 _ => ?_
  exact Ends.bind (P := Mode.calm) (Ends.mode (calm_of _ (by decide))) fun _ _ h => Ends.pure h

theorem Ends.fromStart (s : St) : Ends (· = .initializing) (enterInitFromStart core s) := by
  unfold enterInitFromStart
  refine Ends.rethrow ?_
  refine Ends.bind (P := fun _ => True) (Ends.of_quiet (Quiet.pot hK) trivial) fun _ s1 _ => ?_
  obtain ⟨b, t, r, hc, e⟩ := ask_ok hK (.enterInit .no) s1
  have := hg _ _ _ _ hc
  subst this
  rw [bind_eq]; simp only [Act.bind, e, if_true]
  exact Ends.bind (Ends.enteringInit hK _ _) fun _ _ h => Ends.pure h

theorem Ends.fromInit (it : Iter) (s : St) : Ends Mode.calm (execFromInit core it s) := by
  unfold execFromInit
  refine Ends.bind (P := fun _ => True) (Ends.of_quiet (Quiet.ask hK _) trivial) fun _ s1 _ => ?_
  exact Ends.bind (Ends.enteringExec hK _ _ _) fun _ _ h => Ends.pure h

theorem Ends.initMode {s : St} (h : Held s) (hs : s.single = false) (hm : s.mode = .startup ∨ s.mode = .pendingInit ∨ s.mode = .initializing) :
    Ends (· = .initializing) (enterInitializingMode core s) := by
  unfold enterInitializingMode
  rcases hm with hm | hm | hm <;> simp only [bind_eq, Act.bind, App.get, hm]
  · exact Ends.fromStart hK hg s
  · simp only [hs, Bool.false_eq_true, if_false]; exact Ends.pendingInit hK hg h hm hs
  · exact Ends.pure hm

omit hK hg in
theorem Done.stuck {o : Out α} {s : St} (h : Held s) (ho : o = .busy ∨ o = .crash) : Done (o, s) := by
  rcases ho with rfl | rfl <;> exact ⟨(fun _ e => by cases e), h⟩

omit hK hg in
theorem Done.launch (k : Slot) (j : Job) (s : St) (hm : s.mode = k.pend) (hj : k = .init → j = .enterInit) (v : Val) :
    Done (Act.bind (App.launch k j) (fun _ => Pure.pure v) s) := by
  refine Done.ok fun i hi => ?_
  change s.mode = _ at hi
  have : i = k := by
    rw [hm] at hi
    revert hi; cases i <;> cases k <;> simp [Slot.pend]
  subst this
  exact .inl ⟨j, by simp, hj⟩

omit hg in
theorem Done.loop (t : Time) (n : Nat) (s : St) (hm : s.mode.calm) : Done (requestLoop core t n s) := by
  induction n generalizing s with
  | zero => exact Done.stuck (Held.calm hm) (.inl rfl)
  | succ n ih =>
    unfold requestLoop
    have h1 : Ends Mode.calm (preTimeRequest t false s) := Ends.of_quiet (Quiet.get.bind fun _ => Quiet.note _) hm
    obtain ⟨_, s1, e1, h1⟩ := h1
    refine Done.bind e1 ?_
    obtain ⟨a, s2, e2, h2⟩ := Ends.of_quiet (P := Mode.calm) (Quiet.ask hK (.timeRequest t)) h1
    refine Done.bind e2 ?_
    obtain ⟨_, s3, e3, h3⟩ := Ends.post a.2.1 false s2 h2
    refine Done.bind e3 ?_
    simp only [bind_eq, Act.bind, App.get]
    split
    · exact ih _ h3
    · exact Done.ok (Held.calm h3)

omit hK hg in
theorem Done.rethrow {p : Exn → Bool} {oe : Act Unit} {x : Act α} {s : St} (h : Done (x s)) : Done (Act.rethrow p oe x s) := by
  unfold Act.rethrow
  obtain ⟨h1, h2⟩ := h
  split
  · next e s' he => rw [he] at h1; exact absurd rfl (h1 e)
  · exact ⟨h1, h2⟩

omit hK hg in
theorem Done.launchFinalize (s : St) : Done (App.launchFinalize s) := by
  unfold App.launchFinalize
  exact Done.bind (updateMode_eq _ _) (Done.launch .finalize _ _ rfl (by intro e; cases e) _)

omit hK hg in
theorem Done.launchExec (j : Job) (s : St) : Done (App.launchExec j s) := by
  unfold App.launchExec
  exact Done.bind (updateMode_eq _ _) (Done.launch .exec _ _ rfl (by intro e; cases e) _)

theorem Done.finalize {s : St} (h : Held s) (hm : s.mode ≠ .pendingIterInit) : Done (App.finalize core s) := by
  have hl : s.single = true → ∀ x : Unit → Act Val, Done ((lockAsync >>= x) s) := fun hs x => by
    simp only [bind_eq, Act.bind, lockAsync, hs, if_true]; exact Done.stuck h (.inr rfl)
  unfold App.finalize
  cases hmm : s.mode <;> simp only [bind_eq, Act.bind, App.get, hmm]
  case pendingIterInit => exact absurd hmm hm
  case startup => exact (Ends.finalizeNow hK hg s).done
  case initializing => exact (Ends.finalizeNow hK hg s).done
  case executing => exact (Ends.finalizeNow hK hg s).done
  case finished => exact (Ends.finalizeNow hK hg s).done
  case finalize => exact Done.ok h
  case error => exact Done.ok h
  case pendingFinalize =>
    cases hs : s.single
    · simp only [Bool.false_eq_true, if_false]; exact (Ends.pendingFinalize hK hg h hmm hs).done
    · simp only [if_true]; exact Done.stuck h (.inl rfl)
  case pendingInit =>
    cases hs : s.single
    · simp only [lockAsync, hs, Bool.false_eq_true, if_false]
      obtain ⟨v, s', e, _⟩ := Ends.rethrow (p := anyExn) (oe := updateMode .error) (Ends.take hK hg h .init hmm)
      rw [e]; exact (Ends.finalizeNow hK hg s').done
    · simp only [lockAsync, hs, if_true]; exact Done.stuck h (.inr rfl)
  case pendingExec =>
    cases hs : s.single
    · simp only [lockAsync, hs, Bool.false_eq_true, if_false]
      obtain ⟨v, s', e, _⟩ := Ends.take hK hg h .exec hmm
      rw [e]; exact (Ends.finalizeNow hK hg s').done
    · simp only [lockAsync, hs, if_true]; exact Done.stuck h (.inr rfl)
  case pendingTime =>
    cases hs : s.single
    · simp only [lockAsync, hs, Bool.false_eq_true, if_false]
      obtain ⟨v, s', e, _⟩ := Ends.take hK hg h .time hmm
      rw [e]; exact (Ends.finalizeNow hK hg s').done
    · simp only [lockAsync, hs, if_true]; exact Done.stuck h (.inr rfl)
  case pendingIterTime =>
    cases hs : s.single
    · simp only [lockAsync, hs, Bool.false_eq_true, if_false]
      obtain ⟨v, s', e, _⟩ := Ends.take hK hg h .iterTime hmm
      rw [e]; exact (Ends.finalizeNow hK hg s').done
    · simp only [lockAsync, hs, if_true]; exact Done.stuck h (.inr rfl)

theorem Done.initMode {s : St} (h : Held s) (hm : s.mode = .startup ∨ s.mode = .pendingInit ∨ s.mode = .initializing) : Done (enterInitializingMode core s) := by
  cases hs : s.single
  · exact ((Ends.initMode hK hg h hs hm).mono (fun m e => by rw [e]; exact calm_of _ (by decide))).done
  · unfold enterInitializingMode
    rcases hm with hm | hm | hm <;> simp only [bind_eq, Act.bind, App.get, hm]
    · exact ((Ends.fromStart hK hg s).mono (fun m e => by rw [e]; exact calm_of _ (by decide))).done
    · simp only [hs, if_true]; exact Done.stuck h (.inl rfl)
    · exact Done.ok h

theorem Done.initComplete {s : St} (h : Held s) (hm : s.mode = .startup ∨ s.mode = .pendingInit ∨ s.mode = .initializing) : Done (enterInitializingModeComplete core s) := by
  unfold enterInitializingModeComplete
  simp only [bind_eq, Act.bind, App.get]
  cases hs : s.single
  · simp only [Bool.false_eq_true, if_false]
    rcases hm with hm | hm | hm <;> simp only [hm]
    · exact Done.initMode hK hg h (.inl hm)
    · exact ((Ends.pendingInit hK hg h hm hs).mono (fun m e => by rw [e]; exact calm_of _ (by decide))).done
    · exact Done.ok h
  · simp only [if_true]; exact Done.initMode hK hg h hm

theorem Done.execMode {s : St} (h : Held s) (it : Iter) (hp : (Op.enterExec it).permitted s.mode = true) : Done (enterExecutingMode core it s) := by
  unfold enterExecutingMode
  have hst : ∀ s : St, s.single = true → s.mode = .pendingInit → enterInitializingMode core s = (.busy, s) := by
    intro s hs hm
    simp only [enterInitializingMode, bind_eq, Act.bind, App.get, hm, hs, if_true]
  cases hmm : s.mode <;> simp [Op.permitted, hmm] at hp <;> simp only [bind_eq, Act.bind, App.get, hmm]
  case startup =>
    have : Ends (· = .initializing) (enterInitializingMode core s) := by
      simp only [enterInitializingMode, bind_eq, Act.bind, App.get, hmm]; exact Ends.fromStart hK hg s
    obtain ⟨v, s', e, _⟩ := this
    rw [e]; exact (Ends.fromInit hK hg it s').done
  case pendingInit =>
    cases hs : s.single
    · obtain ⟨v, s', e, _⟩ := Ends.initMode hK hg h hs (.inr (.inl hmm))
      rw [e]; exact (Ends.fromInit hK hg it s').done
    · rw [hst s hs hmm]; exact Done.stuck h (.inl rfl)
  case initializing => exact (Ends.fromInit hK hg it s).done
  case pendingExec =>
    cases hs : s.single
    · simp only [Bool.false_eq_true, if_false]; exact (Ends.pendingExec hK hg h hmm hs).done
    · simp only [if_true]; exact Done.stuck h (.inl rfl)
  case executing => exact Done.ok h
  case pendingTime =>
    obtain ⟨v, s', e, hc⟩ := Ends.timeComplete hK hg h hmm
    rw [e]; exact Done.ok (Held.calm hc)
  case pendingIterTime =>
    obtain ⟨v, s', e, hc⟩ := Ends.iterComplete hK hg h hmm
    rw [e]; exact Done.ok (Held.calm hc)

theorem Done.execComplete {s : St} (h : Held s) (hp : Op.enterExecComplete.permitted s.mode = true) : Done (enterExecutingModeComplete core s) := by
  unfold enterExecutingModeComplete
  simp only [bind_eq, Act.bind, App.get]
  cases hs : s.single
  · simp only [Bool.false_eq_true, if_false]
    by_cases hm : s.mode = .pendingExec
    · simp only [hm]; exact (Ends.pendingExec hK hg h hm hs).done
    · have := Done.execMode hK hg h .no hp
      cases hmm : s.mode
      case pendingExec => exact absurd hmm hm
      all_goals exact this
  · simp only [if_true]; exact Done.execMode hK hg h .no hp

theorem Done.iterComplete {s : St} (h : Held s) (hp : Op.iterInitComplete.permitted s.mode = true) : Done (App.iterInitComplete core s) := by
  unfold App.iterInitComplete
  cases hm : s.mode <;> simp [Op.permitted, hm] at hp <;> simp only [bind_eq, Act.bind, App.get, hm]
  · exact Done.ok h
  · cases hs : s.single
    · simp only [lockAsync, hs, Bool.false_eq_true, if_false]
      refine Ends.done (Ends.rethrow ?_)
      refine Ends.bind (Ends.take hK hg h .iterInit hm) fun v s1 _ => ?_
      exact Ends.bind (P := Mode.calm) (Ends.mode (calm_of _ (by decide))) fun _ _ h => Ends.pure h
    · simp only [lockAsync, hs, if_true]; exact Done.stuck h (.inr rfl)

theorem Done.complete {s : St} (h : Held s) : Done (completeOperation core s) := by
  unfold completeOperation
  simp only [bind_eq, Act.bind, App.get]
  have key : ∀ x : Act Val, Done (x s) → Done ((do let _ ← x : Act Unit) s) := by
    intro x hx
    simp only [bind_eq, Act.bind]
    generalize x s = y at *
    obtain ⟨o, s'⟩ := y
    cases o with
    | ok a => exact Done.ok hx.2
    | throws e => exact absurd rfl (hx.1 e)
    | crash => exact Done.stuck hx.2 (.inr rfl)
    | busy => exact Done.stuck hx.2 (.inl rfl)
  cases hm : s.mode
  case pendingInit => exact key _ (Done.initComplete hK hg h (.inr (.inl hm)))
  case pendingExec => exact key _ (Done.execComplete hK hg h (by simp [Op.permitted, hm]))
  case pendingTime => exact key _ (Ends.timeComplete hK hg h hm).done
  case pendingIterTime => exact key _ (Ends.iterComplete hK hg h hm).done
  case pendingFinalize =>
    refine key _ ?_
    unfold App.finalizeComplete
    simp only [bind_eq, Act.bind, App.get]
    cases hs : s.single
    · simp only [Bool.false_eq_true, if_false, hm, if_true]; exact (Ends.pendingFinalize hK hg h hm hs).done
    · simp only [if_true]; exact Done.finalize hK hg h (by rw [hm]; decide)
  all_goals exact Done.ok h

theorem Done.raise {s : St} (h : Held s) (c : Call) : Done (App.raise core c s) := by
  have := Done.complete hK hg h
  unfold App.raise
  simp only [bind_eq, Act.bind]
  generalize completeOperation core s = y at *
  obtain ⟨o, s'⟩ := y
  cases o with
  | ok a =>
    dsimp only
    refine Ends.done ?_
    refine Ends.bind (f := fun _ => (do let _ ← ask core c; Pure.pure Val.unit : Act Val)) (P := Mode.calm) (Ends.mode (m := .error) (calm_of _ (by decide))) fun _ s1 h1 => ?_
    exact Ends.of_quiet ((Quiet.ask hK c).bind fun _ => Quiet.pure _) h1
  | throws e => exact absurd rfl (this.1 e)
  | crash => exact Done.stuck this.2 (.inr rfl)
  | busy => exact Done.stuck this.2 (.inl rfl)

/-- One after the other. -/
theorem Done.seq {x : Act α} {f : α → Act β} {s : St} (h : Done (x s)) (h2 : ∀ a s', Held s' → Done (f a s')) : Done ((x >>= f) s) := by
  simp only [bind_eq, Act.bind]
  generalize x s = y at *
  obtain ⟨o, s'⟩ := y
  cases o with
  | ok a => exact h2 a s' h.2
  | throws e => exact absurd rfl (h.1 e)
  | crash => exact Done.stuck h.2 (.inr rfl)
  | busy => exact Done.stuck h.2 (.inl rfl)

theorem Done.act {s : St} (h : Held s) (o : Op) (ha : Allowed s o) : Done (App.act core o s) := by
  obtain ⟨hp, ha⟩ := ha
  cases o <;> simp only [App.act]
  case enterInit => exact Done.initMode hK hg h (by simp [Op.permitted] at hp; exact or_assoc.mp hp)
  case enterInitComplete => exact Done.initComplete hK hg h (by simp [Op.permitted] at hp; exact or_assoc.mp hp)
  case enterInitAsync =>
    have hs : s.single = false := by cases hs : s.single <;> simp [hs, Op.isAsync] at ha ⊢
    unfold enterInitializingModeAsync
    simp only [bind_eq, Act.bind, App.get, hs, Bool.false_eq_true, if_false]
    cases hm : s.mode <;> simp [Op.permitted, hm] at hp <;> simp only [hm]
    · exact Done.launch .init .enterInit { s with mode := .pendingInit } rfl (fun _ => rfl) _
    · exact Done.ok h
    · exact Done.ok h
  case iterInit =>
    unfold App.iterInit
    cases hm : s.mode <;> simp [Op.permitted, hm] at hp <;> simp only [bind_eq, Act.bind, App.get, hm]
    · refine Ends.done (Ends.rethrow (Ends.of_quiet (P := Mode.calm) ?_ (by rw [hm]; exact calm_of _ (by decide))))
      refine Quiet.bind ?_ fun _ => Quiet.pure _
      refine Quiet.ite ?_ (Quiet.ite ?_ ?_)
      · exact (Quiet.ask hK _).bind fun _ => (Quiet.ask hK _).bind fun _ => fun s => ⟨_, _, rfl, rfl, rfl⟩
      · exact (Quiet.ask hK _).bind fun _ => (Quiet.ask hK _).bind fun _ => fun s => ⟨_, _, rfl, rfl, rfl⟩
      · exact (Quiet.ask hK _).bind fun _ => Quiet.pure _
    · exact Done.iterComplete hK hg h (by simp [Op.permitted, hm])
  case iterInitAsync =>
    unfold App.iterInitAsync
    cases hm : s.mode <;> simp [Op.permitted, hm] at hp <;> simp only [bind_eq, Act.bind, App.get, hm]
    · cases hs : s.single
      · simp only [lockAsync, hs, Bool.false_eq_true, if_false]
        exact Done.launch .iterInit .iterInit { s with mode := .pendingIterInit } rfl (by intro e; cases e) _
      · simp only [lockAsync, hs, if_true]; exact Done.stuck h (.inr rfl)
    · exact Done.ok h
  case iterInitComplete => exact Done.iterComplete hK hg h hp
  case enterExec it => exact Done.execMode hK hg h it hp
  case enterExecAsync it =>
    have hs : s.single = false := by cases hs : s.single <;> simp [hs, Op.isAsync] at ha ⊢
    unfold enterExecutingModeAsync
    simp only [bind_eq, Act.bind, App.get, hs, Bool.false_eq_true, if_false]
    cases hm : s.mode <;> simp [Op.permitted, hm] at hp <;> simp only [hm]
    case startup => exact Done.launchExec _ _
    case initializing => exact Done.launchExec _ _
    case pendingInit => exact Done.seq hK hg (Done.initComplete hK hg h (.inr (.inl hm))) fun _ s' _ => Done.launchExec _ s'
    all_goals exact Done.ok h
  case enterExecComplete => exact Done.execComplete hK hg h hp
  case requestTime n t =>
    unfold App.requestTime
    cases hm : s.mode <;> simp [Op.permitted, hm] at hp <;> simp only [bind_eq, Act.bind, App.get, hm]
    · exact Done.rethrow (Done.loop hK t n s (by rw [hm]; exact calm_of _ (by decide)))
    · exact Done.ok h
    · exact Done.ok h
  case requestTimeAsync t =>
    have hs : s.single = false := by cases hs : s.single <;> simp [hs, Op.isAsync] at ha ⊢
    have hm : s.mode = .executing := by simpa [Op.permitted] using hp
    simp only [App.requestTimeAsync, preTimeRequest, bind_eq, Act.bind, App.get, hs, hm, Bool.false_eq_true, if_false, if_true, App.set, App.note]
    exact Done.launch .time _ _ rfl (by intro e; cases e) _
  case requestTimeComplete => exact (Ends.timeComplete hK hg h (by simpa [Op.permitted] using hp)).done
  case requestIter t it =>
    unfold requestTimeIterative
    by_cases hm : s.mode = .executing
    · simp only [bind_eq, Act.bind, App.get, hm, if_true, preTimeRequest, App.note, App.set]
      obtain ⟨a, s1, e, h1⟩ := Ends.of_quiet (P := Mode.calm) (Quiet.ask hK (.timeRequestIter t it)) (s := { s with mode := .executing, notes := s.notes ++ [Note.requestEntry s.now t (decide (it ≠ .no))] })
        (calm_of .executing (by decide))
      rw [e]
      exact (Ends.afterIterative _ _ _ h1).done
    · have : s.mode = .finalize ∨ s.mode = .finished := by
        simp [Op.permitted, hm] at hp; exact hp
      simp only [bind_eq, Act.bind, App.get, hm, if_false, this, if_true]
      exact Done.ok h
  case requestIterAsync t it =>
    have hs : s.single = false := by cases hs : s.single <;> simp [hs, Op.isAsync] at ha ⊢
    have hm : s.mode = .executing := by simpa [Op.permitted] using hp
    simp only [App.requestTimeIterativeAsync, preTimeRequest, bind_eq, Act.bind, App.get, hs, hm, Bool.false_eq_true, if_false, if_true, App.set, App.note]
    exact Done.launch .iterTime _ _ rfl (by intro e; cases e) _
  case requestIterComplete => exact (Ends.iterComplete hK hg h (by simpa [Op.permitted] using hp)).done
  case finalize => exact Done.finalize hK hg h (by simpa [Op.permitted] using hp)
  case finalizeAsync =>
    have hs : s.single = false := by cases hs : s.single <;> simp [hs, Op.isAsync] at ha ⊢
    unfold App.finalizeAsync
    simp only [bind_eq, Act.bind, App.get, hs, Bool.false_eq_true, if_false]
    cases hm : s.mode
    case pendingInit => exact Done.seq hK hg (Done.initComplete hK hg h (.inr (.inl hm))) fun _ s' _ => Done.launchFinalize s'
    case pendingExec => exact Done.seq hK hg (Done.execComplete hK hg h (by simp [Op.permitted, hm])) fun _ s' _ => Done.launchFinalize s'
    case pendingTime => exact Done.seq hK hg (Ends.timeComplete hK hg h hm).done fun _ s' _ => Done.launchFinalize s'
    case pendingIterTime => exact Done.seq hK hg (Ends.iterComplete hK hg h hm).done fun _ s' _ => Done.launchFinalize s'
    case finalize => exact Done.ok h
    case error => exact Done.ok h
    case pendingFinalize => exact Done.ok h
    all_goals exact Done.launchFinalize s
  case finalizeComplete =>
    unfold App.finalizeComplete
    simp only [bind_eq, Act.bind, App.get]
    cases hs : s.single
    · simp only [Bool.false_eq_true, if_false]
      by_cases hm : s.mode = .pendingFinalize
      · simp only [hm, if_true]; exact (Ends.pendingFinalize hK hg h hm hs).done
      · simp only [hm, if_false]; exact Done.finalize hK hg h (by simpa [Op.permitted] using hp)
    · simp only [if_true]; exact Done.finalize hK hg h (by simpa [Op.permitted] using hp)
  case localError => exact Done.raise hK hg h _
  case globalError => exact Done.raise hK hg h _
  case isCompleted =>
    unfold isAsyncOperationCompleted
    simp only [bind_eq, Act.bind, App.get]
    cases hs : s.single
    · simp only [Bool.false_eq_true, if_false]
      have key : ∀ k : Slot, s.mode = k.pend → Done ((match s.fut k with | .done _ => (Pure.pure (Val.flag true) : Act Val) | .todo _ => Pure.pure (Val.flag false) | .invalid => Act.throw .std) s) := by
        intro k hk
        rcases h k hk with ⟨j, e, _⟩ | ⟨v, e, _⟩ <;> rw [e] <;> exact Done.ok h
      cases hm : s.mode
      case pendingInit => exact key .init hm
      case pendingExec => exact key .exec hm
      case pendingTime => exact key .time hm
      case pendingIterTime => exact key .iterTime hm
      case pendingFinalize => exact key .finalize hm
      case pendingIterInit => exact key .iterInit hm
      all_goals exact Done.ok h
    · simp only [if_true]; exact Done.ok h
  case destroy =>
    unfold App.destroy
    simp only [bind_eq, Act.bind, App.get]
    by_cases hm : s.mode = .finalize
    · simp only [hm, if_true]; exact Done.ok h
    · simp only [hm, if_false]
      by_cases hi : s.mode = .pendingIterInit
      · have : App.finalize core s = (.throws .invalidCall, s) := by simp only [App.finalize, bind_eq, Act.bind, App.get, hi, Act.throw]
        rw [this]; exact Done.ok h
      · have := Done.finalize hK hg h hi
        generalize App.finalize core s = y at *
        obtain ⟨o, s'⟩ := y
        cases o with
        | ok a => exact Done.ok this.2
        | throws e => exact absurd rfl (this.1 e)
        | crash => exact Done.stuck this.2 (.inr rfl)
        | busy => exact Done.stuck this.2 (.inl rfl)
  case work k =>
    obtain ⟨s', e, h'⟩ := work_held hK hg k h
    simp only [bind_eq, Act.bind, e]; exact Done.ok h'

omit hK hg in
theorem run_snoc (s : St) (os : List Op) (o : Op) : run core s (os ++ [o]) = (App.act core o (run core s os)).2 := by simp [run]

/-- Refused calls change nothing: a history may contain them. -/
theorem held_run {s : St} (h : Held s) (ops : List Op) : Held (run core s ops) := by
  induction ops generalizing s with
  | nil => exact h
  | cons o os ih =>
    refine ih ?_
    by_cases ha : Allowed s o
    · exact (Done.act hK hg h o ha).2
    · show Held (App.act core o s).2
      rw [C52_refused core s o ha]; exact h

/-- With a core that never throws and grants every request to enter initializing mode, a call throws exactly when it may not be made. -/
theorem C52_accepted (single pot retrigger : Bool) (now : Time) (ops : List Op) (o : Op) :
    let s := run core (start single pot retrigger now) ops
    (∃ e, (App.act core o s).1 = .throws e) ↔ ¬ Allowed s o := by
  intro s
  have h : Held s := held_run hK hg (Held.calm (calm_of .startup (by decide))) ops
  constructor
  · rintro ⟨e, he⟩ ha
    exact (Done.act hK hg h o ha).1 e he
  · intro ha
    rw [C52_refused core s o ha]
    exact ⟨_, rfl⟩

omit hK hg

theorem post_eq (t : Time) (i : Bool) (s : St) (hm : s.mode = .executing) : ∃ s', postTimeRequest t i s = (.ok (), s') ∧ s'.now = t ∧ s'.calls = s.calls ∧
    s'.mode = (if t ≥ cTerm then .finished else .executing) := by
  by_cases h : t ≥ cTerm
  · refine ⟨_, (by simp only [postTimeRequest, updateSimulationTime, bind_eq, Act.bind, App.get, App.set, App.note, h, if_true, updateMode_eq]; rfl), ?_, ?_, ?_⟩
    · rfl
    · rfl
    · simp [h]
  · refine ⟨_, (by simp only [postTimeRequest, updateSimulationTime, bind_eq, Act.bind, App.get, App.set, App.note, h, if_false, pure_eq]; rfl), ?_, ?_, ?_⟩
    · rfl
    · rfl
    · simp [h, hm]

/-- A time request returns the time that the core has granted last, this is the current time then, and the federate is done exactly when it is the time of termination; with
automatic repetition it returns only then. -/
theorem C52_time (s s' : St) (n : Nat) (t r : Time) (hm : s.mode = .executing) (h : App.act core (.requestTime n t) s = (.ok (.time r), s')) :
    s'.now = r ∧ (∃ p b x, s'.calls = p ++ [.timeRequest t] ∧ core s'.calls = .gives b r x) ∧ s'.mode = (if r ≥ cTerm then .finished else .executing) ∧
      (s.retrigger = true → r ≥ cTerm) := by
  have h0 : requestLoop core t n s = (.ok (.time r), s') := by
    simp only [App.act, App.requestTime, bind_eq, Act.bind, App.get, hm, Act.rethrow] at h
    split at h
    · split at h <;> cases h
    · exact h
  clear h
  induction n generalizing s with
  | zero => cases h0
  | succ n ih =>
    unfold requestLoop at h0
    simp only [preTimeRequest, bind_eq, Act.bind, App.get, App.note, App.set, App.ask] at h0
    cases hc : core (s.calls ++ [.timeRequest t]) with
    | throws e => simp [hc] at h0
    | gives b x rr =>
      simp only [hc] at h0
      generalize hs1 : ({ mode := s.mode, now := s.now, single := s.single, pot := s.pot, potSeq := s.potSeq, retrigger := s.retrigger, fut := s.fut, calls := s.calls ++ [Call.timeRequest t], notes := s.notes ++ [Note.requestEntry s.now t false] } : St) = s1 at h0
      obtain ⟨s2, e2, n2, c2, m2⟩ := post_eq x false s1 (by rw [← hs1]; exact hm)
      have r2 : s2.retrigger = s.retrigger := by
        have : (postTimeRequest x false s1).2.retrigger = s1.retrigger := by
          simp only [postTimeRequest, updateSimulationTime, bind_eq, Act.bind, App.get, App.set, App.note]
          by_cases hx : x ≥ cTerm <;> simp only [hx, if_true, if_false, updateMode_eq, pure_eq]
        rw [e2, ← hs1] at this; exact this
      rw [e2] at h0
      dsimp only at h0
      by_cases hr : (s2.retrigger && decide (x < cTerm)) = true
      · rw [if_pos hr] at h0
        simp at hr
        have := ih s2 (by rw [m2, if_neg (by omega)]) h0
        rw [r2] at this
        exact this
      · rw [if_neg hr] at h0
        simp only [pure_eq] at h0
        cases h0
        refine ⟨n2, ⟨s.calls, b, rr, by rw [c2, ← hs1], by rw [c2, ← hs1]; exact hc⟩, m2, ?_⟩
        intro h; rw [← r2] at h; simp [h] at hr; exact hr

/-- An iterative time request returns what the core has answered; the time returned is the current time then (unless the answer was an error). -/
theorem C52_iterative (s s' : St) (t r : Time) (it : Iter) (x : Result) (hm : s.mode = .executing) (h : App.act core (.requestIter t it) s = (.ok (.iter r x), s')) :
    s'.calls = s.calls ++ [.timeRequestIter t it] ∧ (∃ b, core s'.calls = .gives b r x) ∧ s'.now = (if x = .error then s.now else r) ∧
      s'.mode = (if x = .error then .error else if x = .halted ∨ r ≥ cTerm then .finished else .executing) := by
  simp only [App.act, requestTimeIterative, preTimeRequest, bind_eq, Act.bind, App.get, hm, if_true, App.note, App.set, App.ask] at h
  cases hc : core (s.calls ++ [.timeRequestIter t it]) with
  | throws e => simp [hc] at h
  | gives b y z =>
    simp only [hc, afterIterative] at h
    have hv : y = r ∧ z = x := by
      revert h
      simp only [bind_eq, Act.bind]
      split <;> intro h <;> cases h <;> exact ⟨rfl, rfl⟩
    obtain ⟨rfl, rfl⟩ := hv
    cases z with
    | error => simp only [bind_eq, Act.bind, updateMode_eq, pure_eq] at h; cases h; simp [hc]
    | halted =>
      simp only [bind_eq, Act.bind, updateMode_eq, pure_eq, App.get, updateSimulationTime, App.set, App.note] at h
      by_cases hx : y ≥ cTerm <;> simp only [hx, if_true, if_false, updateMode_eq, pure_eq] at h <;> cases h <;> simp [hc]
    | nextStep =>
      simp only [bind_eq, Act.bind, updateMode_eq, pure_eq, App.get, postTimeRequest, updateSimulationTime, App.set, App.note] at h
      by_cases hx : y ≥ cTerm <;> simp only [hx, if_true, if_false, updateMode_eq, pure_eq] at h <;> cases h <;> simp [hc, hx]
    | iterating =>
      simp only [bind_eq, Act.bind, updateMode_eq, pure_eq, App.get, postTimeRequest, updateSimulationTime, App.set, App.note] at h
      by_cases hx : y ≥ cTerm <;> simp only [hx, if_true, if_false, updateMode_eq, pure_eq] at h <;> cases h <;> simp [hc, hx]

/-- After the end a time request returns at once: the core is not asked. -/
theorem C52_after_end (s : St) (n : Nat) (t : Time) (it : Iter) (hm : s.mode = .finalize ∨ s.mode = .finished) :
    App.act core (.requestTime n t) s = (.ok (.time maxVal), s) ∧ App.act core (.requestIter t it) s = (.ok (.iter maxVal .halted), s) := by
  rcases hm with hm | hm <;> simp [App.act, App.requestTime, requestTimeIterative, bind_eq, Act.bind, App.get, hm, pure_eq]

end App
end Verif
